import Verif.Game
import Verif.FixLemmas
import Verif.GameLemmas
import Verif.WinProps
import Verif.Sublevels
import Verif.SublevelLemmas
import Verif.SublevelProps
import Verif.Realizable
import Verif.RealizableProps
import Verif.Automaton
import Verif.AutomatonLemmas
import Verif.AutomatonProps
import Verif.Synth
import Verif.SynthLemmas
import Verif.SynthInv
import Verif.SynthProps
import Verif.SynthStates
import Verif.Cube
import Verif.CubeLemmas
import Verif.CubeProps
import Verif.BddOps
import Verif.BddLemmas
import Verif.BddProps
import Verif.Bits
import Verif.BitsProps
import Verif.PTree
import Verif.Formula
import Verif.PTreeLemmas
import Verif.PTreeProps
import Verif.Expand
import Verif.ExpandLemmas
import Verif.ExpandProps
import Verif.Form
import Verif.FormProps
import Verif.Embed
import Verif.Pipeline
import Verif.IntGame
import Verif.PipelineLemmas
import Verif.PipelineProps
import Verif.Scan
import Verif.Layout
import Verif.ScanLemmas
import Verif.ScanProps
import Verif.Parse
import Verif.Grammar
import Verif.ParseLemmas
import Verif.FileSpec
import Verif.FileLemmas
import Verif.Render
import Verif.Print
import Verif.PrintLemmas
import Verif.PrintProps
import Verif.ParseProps
import Verif.SpinSpec
import Verif.SpinProps
import Verif.SpinDump
import Verif.SpinDumpProps
import Verif.CText
import Verif.CTextProps
import Verif.AutIO
import Verif.AutIOSpec
import Verif.AutIOLemmas
import Verif.AutIOProps
import Verif.ReachGame
import Verif.ReachSpec
import Verif.ReachLemmas
import Verif.ReachInv
import Verif.ReachProps
import Verif.Compact
import Verif.CompactLemmas
import Verif.CompactProps
import Verif.Metric
import Verif.MetricLemmas
import Verif.MetricProps
import Verif.Interactive
import Verif.InteractLemmas
import Verif.InteractSpec
import Verif.InteractInv
import Verif.InteractProps
import Verif.RmGoal
import Verif.RmGoalLemmas
import Verif.RmGoalInv
import Verif.RmGoalSpec
import Verif.RmGoalShape
import Verif.RmGoalProps
import Verif.Cli
import Verif.CliSpec
import Verif.CliLemmas
import Verif.CliProps
import Verif.Main
import Verif.MainSpec
import Verif.MainLemmas
import Verif.MainProps
import Verif.Patch
import Verif.PatchLemmas
import Verif.PatchShape
import Verif.PatchSpec
import Verif.PatchInv
import Verif.PatchChange
import Verif.PatchProps
import Verif.SynthAnnot
import Verif.SynthAnnotProps
import Verif.Json
import Verif.JsonSpec
import Verif.JsonDump
import Verif.JsonLemmas
import Verif.JsonProps
import Verif.MainOut
import Verif.Rg
import Verif.RgSpec
import Verif.RgLemmas
import Verif.RgProps
import Verif.Promela
import Verif.PromelaLemmas
import Verif.SpinModel
import Verif.SpinRun
import Verif.SpinExec
import Verif.SpinVerify
import Verif.SpinText
import Verif.SpinModelProps
import Verif.MainSpin
import Verif.Dot
import Verif.DotSpec
import Verif.DotLemmas
import Verif.DotProps
import Verif.ListDump
import Verif.ListSpec
import Verif.ListLemmas
import Verif.XmlLemmas
import Verif.ListProps
import Verif.TextOut
import Verif.Autman
import Verif.AutmanSpec
import Verif.AutmanLemmas
import Verif.LoadWell
import Verif.Renumber
import Verif.AutmanProps
import Verif.AutmanEx
import Verif.PatchFile
import Verif.PatchFileSpec
import Verif.PatchFileLemmas
import Verif.PatchFileInt
import Verif.PatchMoved
import Verif.PatchFileProps
import Verif.AddGoal
import Verif.AddGoalGlue
import Verif.AddGoalShape
import Verif.AddGoalSpec
import Verif.AddGoalModes
import Verif.AddGoalProps
import Verif.PatchMain
import Verif.EmbedSeeks
import Verif.PatchMainSpec
import Verif.PatchGoals
import Verif.PatchCli
import Verif.PatchMainLemmas
import Verif.PatchMainProps
import Verif.PatchMainEx
import Verif.EmbedPatch
import Verif.PatchEdges
import Verif.PatchEdgesEx
import Verif.PatchRefused
import Verif.Sim
import Verif.SimSpec
import Verif.SimLemmas
import Verif.SimTrace
import Verif.SimProps
import Verif.SimBitsProps
import Verif.SimEx
import Verif.Log
import Verif.LogProps
import Verif.Support
import Verif.SupportProps
import Verif.SupportEx
import Verif.TreeDot
import Verif.TreeDotProps
import Verif.PtDump
import Verif.PtDumpProps
import Verif.Stdout
import Verif.StdoutProps
import Verif.StdoutMain
import Verif.BddCubes
import Verif.PathCover
import Verif.RepoTests
import Verif.RepoUnit
import Verif.CopyProps
import Verif.PatchDump
import Verif.Dialog
import Verif.DialogSpec
import Verif.DialogLemmas
import Verif.DialogProps
import Verif.RepoDialog
import Verif.ParseErr
import Verif.ParseErrSpec
import Verif.ParseErrForm
import Verif.ParseErrLemmas
import Verif.ParseErrMore
import Verif.ParseErrPlace
import Verif.ParseErrLines
import Verif.ParseErrAgree
import Verif.ParseErrProps
import Verif.ParseErrOut
import Verif.NumRange
import Verif.NumRangeLemmas
import Verif.NumRangeProps
import Verif.ParseErrText
import Verif.FormLeft
import Verif.FormLeftLemmas
import Verif.FormLeftProps
import Verif.HelpText
import Verif.HelpTextProps
import Verif.AutmanOut
import Verif.AutmanOutProps
import Verif.PatchOut
import Verif.PatchOutProps
import Verif.PatchLine
