import Verif.Base
import Verif.Core.ListLemmas
import Verif.Props.C26_List
import Verif.Props.C25_Vector
import Verif.Props.C24_HashSet
import Verif.Machine.Sem
import Verif.Gen.Program
import Verif.Frag.Adequacy
import Verif.Frag.Compile
import Verif.Chain.Check
import Verif.Spec.Chain
import Verif.Exec.Cmp
import Verif.Exec.Match4
import Verif.Exec.SetMap
import Verif.Exec.Sets2
import Verif.Frag.Static
import Verif.Exec.Rule
import Verif.Exec.Pro9
import Verif.Spec.Eval
import Verif.Chain.Update
import Verif.Chain.Wf
import Verif.Exec.Main3
import Verif.Exec.Sock2
import Verif.Props.C01_Verdict
import Verif.Props.C02_Continue
import Verif.Props.C03_Counters
import Verif.Props.C18_Mark
import Verif.Props.C36_CatchAll
import Verif.Props.C15_Inert
import Verif.Props.C15_Loaded
import Verif.Props.Probes
import Verif.Props.C40_Sock
import Verif.Props.C13_Shape
import Verif.Props.C14_Memory
import Verif.Frag.Total
import Verif.Frag.TotalM
import Verif.Frag.TotalP
import Verif.Frag.TotalR
import Verif.Frag.TotalC
import Verif.Spec.Support
import Verif.Props.C16_Support
import Verif.Machine.Smp
import Verif.Props.C20_Log
import Verif.Props.C19_Rate
import Verif.Core.SetOps
import Verif.Props.C27_UpdateSet
import Verif.Sys.Lock
import Verif.Props.C29_Lock
import Verif.Pack.Mpack
import Verif.Pack.Read
import Verif.Pack.Round
import Verif.Props.C28_Pack
import Verif.User.Names
import Verif.Props.C38_Names
import Verif.User.CStr
import Verif.User.HookOpts
import Verif.Props.C34_HookOpts
import Verif.User.Printer
import Verif.Props.C35_Printer
import Verif.Pack.Handle
import Verif.Cgen.World
import Verif.Cgen.Ops
import Verif.Cgen.View
import Verif.Cgen.Frame
import Verif.Cgen.Make
import Verif.Cgen.Pins
import Verif.Cgen.Persist
import Verif.Cgen.Restore
import Verif.Cgen.Update3
import Verif.Cgen.Lift
import Verif.Props.C31_Update
import Verif.Cgen.Get
import Verif.Cgen.Transfer
import Verif.Props.C33_Totals
import Verif.Cgen.Set
import Verif.Cgen.Crash
import Verif.Cgen.Crash2
import Verif.Cgen.Crash3
import Verif.Cgen.Stuck
import Verif.Props.C32_Crash
import Verif.Props.C32_Sample
import Verif.Props.C39_Set
import Verif.User.Inet
import Verif.User.InetLemmas
import Verif.User.Payload
import Verif.User.PayloadLemmas
import Verif.User.SetRaw
import Verif.Props.C43_Text
import Verif.Props.C37_SetRaw
import Verif.Props.C28_Handle
import Verif.Spec.Doc
import Verif.Props.C38_Doc
import Verif.Cgen.Ruleset
import Verif.Cgen.Left
import Verif.Cgen.Flush
import Verif.Cgen.PutAll
import Verif.Cgen.RulesetSafe
import Verif.Props.C44_Ruleset
import Verif.Cli.Regex
import Verif.Cli.Lexer
import Verif.Cli.Grammar
import Verif.Cli.Action
import Verif.Cli.Spell
import Verif.Cli.SetText
import Verif.Spec.Ruleset
import Verif.Cli.Sound
import Verif.Spec.Written
import Verif.Cli.Scan
import Verif.Cli.Read
import Verif.Cli.Words
import Verif.Cli.Leaves
import Verif.Cli.Reads
import Verif.Cli.Sentences
import Verif.Cli.Accept
import Verif.Cli.Stop
import Verif.Props.C45_Text
import Verif.Props.C45_Sample
import Verif.Spec.PayloadText
import Verif.User.TextNum
import Verif.User.TextAddr
import Verif.User.TextPayload
import Verif.User.TextMeans
import Verif.Props.C46_Meaning
import Verif.Spec.TextPacket
import Verif.Props.C47_Rest
import Verif.Props.C48_Text
import Verif.Spec.RulesetPacket
import Verif.Props.C49_Ruleset
import Verif.Props.C49_Loads
import Verif.Props.C49_Sample
import Verif.Cli.Dump
import Verif.Cli.DumpWords
import Verif.Cli.DumpPayload
import Verif.Cli.DumpSets
import Verif.Cli.DumpRules
import Verif.Cli.DumpChain
import Verif.Cli.Blank
import Verif.Spec.Shown
import Verif.Props.C50_Alike
import Verif.Props.C50_Shown
import Verif.Props.C50_Raw
import Verif.Props.C50_Sample
import Verif.Cli.Small
import Verif.Props.C50_Read
import Verif.Props.C50_Again
import Verif.Cli.Opts
import Verif.Cli.Main
import Verif.Cli.OptsLemmas
import Verif.Cli.Setup
import Verif.Cli.MainLemmas
import Verif.Cli.FromText
import Verif.Spec.Usage
import Verif.Spec.Command
import Verif.Props.C51_Options
import Verif.Props.C51_Main
import Verif.Props.C51_Effects
import Verif.Props.C51_Named
import Verif.Props.C51_Get
import Verif.Props.C51_UpdateSet
import Verif.Props.C51_Ruleset
import Verif.Props.C51_Obeys
import Verif.Props.C51_Sample
import Verif.Cgen.Within
import Verif.Cgen.WithinOps
import Verif.Cgen.Calls
import Verif.Cgen.Tagged
import Verif.Cgen.Local
import Verif.Spec.Regards
import Verif.Spec.Issued
import Verif.Props.C52_Others
import Verif.Props.C52_History
import Verif.Props.C52_Sample
import Verif.Cgen.Fair
import Verif.Cgen.FairOps
import Verif.Cgen.FairChain
import Verif.Spec.AskedFor
import Verif.Props.C53_Asked
import Verif.Props.C53_History
import Verif.Props.C53_Sample
import Verif.Props.C54_Texts
import Verif.Props.C54_Decided
import Verif.Props.C54_Sample
import Verif.Spec.LogText
import Verif.Cli.LogPrint
import Verif.Cli.LogLemmas
import Verif.Props.C55_Lines
import Verif.Props.C55_Entry
import Verif.Props.C55_Sock
import Verif.Props.C55_Logs
import Verif.Props.C55_Sample
import Verif.Props.C50_Rate
import Verif.Cgen.Binds
import Verif.Cgen.BindsOps
import Verif.Cgen.BindsMoves
import Verif.Spec.KernelMaps
import Verif.Props.C56_Maps
import Verif.Props.C56_Decided
import Verif.Props.C56_Sample
import Verif.Spec.SockFields
import Verif.Spec.TextSocket
import Verif.Props.C48_Sock
import Verif.Props.C49_Sock
import Verif.Props.C49_SockSample
import Verif.Spec.Corr
import Verif.Props.C57_Alike
import Verif.Props.C57_Same
import Verif.Props.C57_Sample
import Verif.Cli.Fds
import Verif.Props.C58_Fds
import Verif.Props.C58_Sample
