import Verif.Assembles
import Verif.Bench
import Verif.BlockLive
import Verif.BlockSpec
import Verif.ByteCrews
import Verif.ByteTeam
import Verif.CallGraph
import Verif.CallSpec
import Verif.CfPrint
import Verif.Cfg
import Verif.CfgPass
import Verif.CfgPassLemmas
import Verif.CheckInst
import Verif.CheckLemmas
import Verif.Codegen
import Verif.Concrete
import Verif.Console
import Verif.Cost
import Verif.DeadPass
import Verif.Emit
import Verif.Emitted
import Verif.Ending
import Verif.Evex
import Verif.Exception
import Verif.Family
import Verif.FastPath
import Verif.Footprint
import Verif.Forever
import Verif.FrameLemmas
import Verif.FullMode
import Verif.Futures
import Verif.Heap
import Verif.HeapLemmas
import Verif.HeapLoc
import Verif.HeapOrder
import Verif.HeapPass
import Verif.HeapRun
import Verif.HeapSound
import Verif.HeapTerm
import Verif.Image
import Verif.ImageCores
import Verif.ImageTeam
import Verif.InterProc
import Verif.Jit
import Verif.JitLemmas
import Verif.ListLemmas
import Verif.Local
import Verif.Lowering
import Verif.LoweringLemmas
import Verif.Machine
import Verif.MachineCode
import Verif.MachineLemmas
import Verif.Micro
import Verif.Multi
import Verif.Objects
import Verif.OpenJumps
import Verif.PathSpec
import Verif.Pipeline
import Verif.Plan
import Verif.PlanMachine
import Verif.Plot
import Verif.Program
import Verif.Props.Areas
import Verif.Props.Bench
import Verif.Props.BlockLive
import Verif.Props.ByteCrews
import Verif.Props.ByteCrewsExamples
import Verif.Props.ByteFoot
import Verif.Props.ByteTeam
import Verif.Props.ByteTeamExamples
import Verif.Props.CallGraph
import Verif.Props.CfPrint
import Verif.Props.CfgPass
import Verif.Props.Check
import Verif.Props.CheckInst
import Verif.Props.Codegen
import Verif.Props.Console
import Verif.Props.Cost
import Verif.Props.CrewWrites
import Verif.Props.CrewWritesExamples
import Verif.Props.DeadPass
import Verif.Props.Ending
import Verif.Props.Evex
import Verif.Props.EvexTable
import Verif.Props.Exact
import Verif.Props.Exception
import Verif.Props.Family
import Verif.Props.FastPath
import Verif.Props.FlagBits
import Verif.Props.Flags
import Verif.Props.FootWrites
import Verif.Props.Forever
import Verif.Props.FrameMode
import Verif.Props.FullMode
import Verif.Props.FullModeExamples
import Verif.Props.Futures
import Verif.Props.Heap
import Verif.Props.HeapExact
import Verif.Props.HeapLoc
import Verif.Props.HeapPass
import Verif.Props.HeapSample
import Verif.Props.HeapSound
import Verif.Props.HeapSummary
import Verif.Props.HeapTerm
import Verif.Props.Heights
import Verif.Props.Honest
import Verif.Props.Image
import Verif.Props.ImageCores
import Verif.Props.ImageCoresTool
import Verif.Props.ImageTeam
import Verif.Props.ImageTeamTool
import Verif.Props.ImageTool
import Verif.Props.InterProc
import Verif.Props.Interplay
import Verif.Props.Local
import Verif.Props.Lowering
import Verif.Props.Machine
import Verif.Props.MachineCode
import Verif.Props.MachineExamples
import Verif.Props.Marks
import Verif.Props.Micro
import Verif.Props.MoveOrder
import Verif.Props.Moved
import Verif.Props.Multi
import Verif.Props.MultiExamples
import Verif.Props.Objects
import Verif.Props.ObjectsExamples
import Verif.Props.OpenJumps
import Verif.Props.OpenJumpsExamples
import Verif.Props.Pipeline
import Verif.Props.Plan
import Verif.Props.PlanMachine
import Verif.Props.PlanMachineExamples
import Verif.Props.PlanPoints
import Verif.Props.Plot
import Verif.Props.Program
import Verif.Props.Protector
import Verif.Props.Push
import Verif.Props.RedZonePush
import Verif.Props.Refine
import Verif.Props.RefineCores
import Verif.Props.RefineCoresExamples
import Verif.Props.RefineCoresPlan
import Verif.Props.RefineExamples
import Verif.Props.RefineFull
import Verif.Props.RefineFullExamples
import Verif.Props.RefineLive
import Verif.Props.RefineLiveExamples
import Verif.Props.RefinePlan
import Verif.Props.RefinePlanExamples
import Verif.Props.RefineSolo
import Verif.Props.RefineTeam
import Verif.Props.RefineTeamExamples
import Verif.Props.RefineTeamPlan
import Verif.Props.RegFrame
import Verif.Props.RegNames
import Verif.Props.Region
import Verif.Props.Report
import Verif.Props.ReportSites
import Verif.Props.RunMachine
import Verif.Props.RunMachineExamples
import Verif.Props.SafePaths
import Verif.Props.Scratch
import Verif.Props.Script
import Verif.Props.SignalClaims
import Verif.Props.SignalEmbed
import Verif.Props.SignalExamples
import Verif.Props.SignalProgram
import Verif.Props.SignalProgramExamples
import Verif.Props.SignalTeam
import Verif.Props.SignalTeamExamples
import Verif.Props.SignalTeamRun
import Verif.Props.SignalThreads
import Verif.Props.Signals
import Verif.Props.Silence
import Verif.Props.SkipList
import Verif.Props.SkipListExact
import Verif.Props.Slip
import Verif.Props.SlipExamples
import Verif.Props.SnipWrites
import Verif.Props.Spawn
import Verif.Props.Startup
import Verif.Props.StatsFile
import Verif.Props.Threads
import Verif.Props.ToolMain
import Verif.Props.ToolRun
import Verif.Props.Tools
import Verif.Props.Total
import Verif.Props.Unwind
import Verif.Props.UnwindExamples
import Verif.Props.UnwindMachine
import Verif.Props.UnwindMachineExamples
import Verif.Props.WeakMemory
import Verif.Props.WeakMemoryExamples
import Verif.Props.Whole
import Verif.Props.WholeExamples
import Verif.Props.Windows
import Verif.Protector
import Verif.Refine
import Verif.RefineCores
import Verif.RefineCoresPlan
import Verif.RefineLive
import Verif.RefinePlan
import Verif.RefineTeam
import Verif.RefineTeamPlan
import Verif.RegNames
import Verif.Report
import Verif.Runtime
import Verif.SafePaths
import Verif.SignalProgram
import Verif.SignalTeam
import Verif.Signals
import Verif.Silence
import Verif.SkipList
import Verif.Slip
import Verif.SnippetSpec
import Verif.Snippets
import Verif.Spawn
import Verif.Startup
import Verif.StatsFile
import Verif.Strings
import Verif.Summary
import Verif.Thread
import Verif.Threads
import Verif.ToolMain
import Verif.Tools
import Verif.Unwind
import Verif.UnwindMachine
import Verif.WeakMemory
import Verif.Whole
import Verif.Windows
import Verif.Witness
import Verif.X86
import Verif.X86Lemmas
