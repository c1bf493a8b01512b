import Verif.Core.Types
import Verif.Core.Lemmas
import Verif.Core.Oracle
import Verif.Hw.Component
import Verif.Hw.Spec
import Verif.Hw.Lemmas
import Verif.Props.C01_C02_Lifecycle
import Verif.RM.Model
import Verif.RM.Inv
import Verif.RM.Ops
import Verif.RM.Cycle
import Verif.RM.Itf
import Verif.RM.Run
import Verif.RM.Fail
import Verif.Props.C03_C05_Resource
import Verif.RM.FailMore
import Verif.Props.C25_C26_Hardware
import Verif.CM.Order
import Verif.CM.OrderLemmas
import Verif.CM.Model
import Verif.CM.RmStep
import Verif.CM.Sys
import Verif.CM.Spec
import Verif.CM.SysInv
import Verif.CM.SysSteps
import Verif.CM.Decomp
import Verif.CM.Topo
import Verif.CM.Ops
import Verif.CM.Run
import Verif.CM.Local
import Verif.CM.OrderForest
import Verif.CM.TopoMem
import Verif.Props.CMDemo
import Verif.Props.C06_C10_Controllers
import Verif.Props.C11_C13_Chains
import Verif.CM.Accept
import Verif.CM.SwFrame
import Verif.CM.Avail
import Verif.CM.Wired
import Verif.Props.C14_C18_Switch
import Verif.CM.Chained
import Verif.CM.Idle
import Verif.CM.ChainReq
import Verif.CM.Hist
import Verif.Props.C19_C20_ChainedMode
import Verif.Props.C41_C43_Callbacks
import Verif.CM.ChainEnter
import Verif.Props.C43_ChainEntry
import Verif.RT.RTList
import Verif.RT.Handshake
import Verif.Props.C23_RTList
import Verif.Props.C24_Handshake
import Verif.Num.UpdateRate
import Verif.Props.C22_UpdateRate
import Verif.CM.Stop
import Verif.CM.HwUse
import Verif.Props.C27_HardwareUsers
import Verif.Num.Transmission
import Verif.Num.TransmissionLemmas
import Verif.Props.C30_Transmission
import Verif.Props.C44_TransmissionSetup
import Verif.Num.Dbl
import Verif.Num.Statistics
import Verif.Props.C32_Statistics
import Verif.CM.Recover
import Verif.CM.Asked
import Verif.Props.C21_C45_C46_Recovery
import Verif.Core.Unique
import Verif.Text.Regex
import Verif.Text.Parse
import Verif.Text.Spec
import Verif.Text.Lemmas
import Verif.Text.Numbers
import Verif.Props.C31_C47_C49_Text
import Verif.Num.DblLemmas
import Verif.Num.Limits
import Verif.Num.LimitsLemmas
import Verif.Num.LimitsSys
import Verif.Num.Saturation
import Verif.Props.C28_Limits
import Verif.Props.C29_LimitRuns
import Verif.Props.C28_SoftLimits
import Verif.Props.C40_LimitsEnforced
import Verif.Handle.Model
import Verif.Handle.Spec
import Verif.Handle.Refine
import Verif.Props.C38_Handles
import Verif.Chain.Chainable
import Verif.Props.C36_C37_Chainable
import Verif.RM.Initial
import Verif.RM.InitialLemmas
import Verif.Props.C34_BringUp
import Verif.Props.C39_Claimed
import Verif.CM.Exposed
import Verif.Props.C35_Exports
import Verif.Props.C33_Fallbacks
import Verif.Props.C50_Saturation
import Verif.Num.LimitParams
import Verif.Props.C51_LimitParams
import Verif.Mock.GenericSystem
import Verif.Mock.Lemmas
import Verif.Props.C52_MockHardware
import Verif.Props.C52_MockDynamics
import Verif.Props.C52_MockModes
import Verif.Props.C52_MockDemo
import Verif.Hw.Async
import Verif.Hw.AsyncSpec
import Verif.Hw.AsyncLemmas
import Verif.Props.C53_AsyncHardware
import Verif.Hw.Export
import Verif.Hw.ExportSpec
import Verif.Hw.ExportLemmas
import Verif.Props.C54_ExportedInterfaces
import Verif.Desc.Limits
import Verif.Desc.LimitsSpec
import Verif.Desc.LimitsLemmas
import Verif.Desc.AcceptLemmas
import Verif.Props.C55_DescribedLimits
import Verif.Loop.Model
import Verif.Loop.Spec
import Verif.Loop.Lemmas
import Verif.Props.C56_LoopTiming
import Verif.Sem.Model
import Verif.Sem.Spec
import Verif.Sem.Lemmas
import Verif.Props.C57_SemanticComponents
import Verif.Xml.Model
import Verif.Xml.Spec
import Verif.Xml.Lemmas
import Verif.Xml.Sound
import Verif.Xml.Whole
import Verif.Xml.Doc
import Verif.Xml.Use
import Verif.Props.C58_Description
import Verif.CM.Lenient
import Verif.Props.C15_Strictness
import Verif.Props.C15_Timeout
import Verif.Spawn.Model
import Verif.Spawn.Spec
import Verif.Spawn.Lemmas
import Verif.Spawn.Effects
import Verif.Spawn.Trees
import Verif.Spawn.Outcome
import Verif.Spawn.Still
import Verif.Props.C59_Spawner
import Verif.Cli.Model
import Verif.Props.C68_Cli
import Verif.CM.Calm
import Verif.CM.Told
import Verif.CM.Listing
import Verif.CM.Reload
import Verif.Props.C60_Listings
import Verif.Props.C61_Reload
import Verif.ACtl.Model
import Verif.ACtl.Spec
import Verif.ACtl.Lemmas
import Verif.Props.C62_AsyncControllers
import Verif.CM.HwFrame
import Verif.CM.Shutdown
import Verif.CM.ShutdownHw
import Verif.Props.C63_Shutdown
import Verif.Boot.Model
import Verif.Boot.Lemmas
import Verif.Props.C65_Start
import Verif.Diag.Model
import Verif.Diag.Spec
import Verif.Diag.Lemmas
import Verif.Props.C64_Diagnostics
import Verif.RtList.Model
import Verif.RtList.Lemmas
import Verif.Props.C66_RtList
import Verif.CM.ActivityLemmas
import Verif.Props.C67_Activity
import Verif.Num.Round
import Verif.Num.LimitsR
import Verif.Num.LimitsRLemmas
import Verif.Props.C69_Rounding
import Verif.Params.Model
import Verif.Params.Spec
import Verif.Params.Lemmas
import Verif.Props.C70_Params
import Verif.Num.Round64
import Verif.Num.StatisticsR
import Verif.Props.C71_StatisticsFloat
import Verif.Props.C71_Variance
import Verif.Num.Near
import Verif.Num.TransmissionR
import Verif.Props.C72_TransmissionFloat
import Verif.Argv.Model
import Verif.Argv.Launch
import Verif.Argv.Spec
import Verif.Argv.Lemmas
import Verif.Argv.Lines
import Verif.Props.C73_CommandLine
import Verif.Props.C73_Launch
import Verif.Flow.Model
import Verif.Flow.Lemmas
import Verif.Flow.HwLemmas
import Verif.Props.C74_Flow
import Verif.Num.LimitGet
import Verif.Props.C75_LimitsRead
import Verif.CM.OrderDetour
import Verif.Props.C11_Detours
import Verif.Views.Model
import Verif.Props.C76_Views
import Verif.Gui.Model
import Verif.Props.C77_Gui
import Verif.Props.C77_GuiHw
import Verif.Views.Lists
import Verif.Props.C78_Lists
import Verif.Props.C28_SoftBraking
import Verif.Props.C52_MockConfigure
import Verif.Names.Model
import Verif.Props.C79_Names
import Verif.Status.Model
import Verif.Props.C80_HwStatus
import Verif.Props.C34_Loading
import Verif.Argv.Tools
import Verif.Props.C81_Tools
import Verif.Props.C81_Times
import Verif.Props.C73_Spellings
import Verif.Pub.Model
import Verif.Pub.Lemmas
import Verif.Props.C82_Statistics
import Verif.Pub.Store
import Verif.Props.C83_Introspection
import Verif.Props.C22_HardwareRate
import Verif.Lc.Model
import Verif.Props.C84_LifecycleId
import Verif.Argv.Verbs
import Verif.Props.C85_SwitchLine
import Verif.Check.Model
import Verif.Props.C86_TestUtils
import Verif.Util.Model
import Verif.Props.C87_Helpers
import Verif.Pub.Hardware
import Verif.Props.C88_HwStats
import Verif.Props.C65_Constructor
