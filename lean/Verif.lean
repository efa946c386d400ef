import Verif.Model.Codec
import Verif.Props.Ids
import Verif.Props.SetTables
import Verif.Props.TagSetIndex
import Verif.Props.VariantsIndex
import Verif.Props.SetFiles
import Verif.Props.TagCodec
import Verif.Props.FileFormat
import Verif.Props.Utf8
import Verif.Props.Words
import Verif.Props.Capacity
import Verif.Props.Tagging
import Verif.Props.EmptyReading
import Verif.Props.Optimize
import Verif.Lemmas.WordChain
import Verif.Props.Reload
import Verif.Props.LoadSafety
import Verif.Props.ById
import Verif.Props.Slots
import Verif.Props.Concurrent
import Verif.Props.LostStores
import Verif.Props.Import
import Verif.Props.EndToEnd
import Verif.Props.Exact
import Verif.Props.Loader
import Verif.Props.Update
import Verif.Props.Cli
import Verif.Props.Sharing
import Verif.Props.CallerSlices
import Verif.Props.Resave
import Verif.Props.FailedLoad
import Verif.Props.Tool
import Verif.Props.UpdateCmd
import Verif.Props.UpdateCmdExact
import Verif.Props.ConcurrentAdd
import Verif.Props.ConcurrentAddExact
import Verif.Props.Session
import Verif.Props.Inspect
import Verif.Props.OptimizeLog
import Verif.Props.OptimizeExact
import Verif.Props.ParserExact
import Verif.Props.Printed
import Verif.Props.Layout
import Verif.Props.Order
import Verif.Props.Texts
import Verif.Props.Records
import Verif.Props.Paths
import Verif.Props.Delivery
import Verif.Props.SaysSame
import Verif.Props.Numbers
import Verif.Props.Progress
import Verif.Props.Provenance
import Verif.Props.ProvenanceExact
import Verif.Props.Boundaries
import Verif.Props.LoaderExact
import Verif.Props.LookupExact
import Verif.Props.LoadExact
import Verif.Props.NodeText
import Verif.Props.LoaderSuccess
import Verif.Props.CliExact
import Verif.Props.SaveExact
import Verif.Props.FileChecks
import Verif.Props.TextsExact
import Verif.Props.Sort
import Verif.Props.InspectExact
import Verif.Props.RecordsExact
import Verif.Props.SaysSameExact
import Verif.Props.OrderExact
import Verif.Props.NumbersExact
import Verif.Props.FailedLoadExact
import Verif.Props.ConcurrentMixed
import Verif.Props.ConcurrentRaces
import Verif.Props.TypedNumbers
import Verif.Props.TagTogether
import Verif.Props.TagWhileAdding
import Verif.Props.SaveWhile
import Verif.Props.Errors
import Verif.Props.Cost
import Verif.Props.Output
import Verif.Props.Size
import Verif.Props.Copy
import Verif.Props.Completions
import Verif.Props.Processes
import Verif.Props.Merge
import Verif.Props.SetStreams
import Verif.Props.WordsNul
import Verif.Props.Updates
import Verif.Props.OptimizeCost
import Verif.Props.Memory
import Verif.Props.OptimizeWhile
import Verif.Props.Larger
import Verif.Spec.LoadWhile
import Verif.Props.LoadWhile
import Verif.Props.CopyExact
import Verif.Props.FileCost
import Verif.Props.Recover
import Verif.Props.ReadingOrder
import Verif.Props.Reference
import Verif.Props.ImportCost
import Verif.Props.Clients
import Verif.Props.UpdateLog
import Verif.Props.ToolLog
import Verif.Props.ToolComplaints
import Verif.Props.SessionLog
import Verif.Props.UpdateText
import Verif.Props.ToolMain
import Verif.Props.UpdatesEnd
import Verif.Props.NumbersPrinted
import Verif.Model.OptimizeTold
import Verif.Spec.OptimizeTold
import Verif.Lemmas.OptimizeTold
import Verif.Props.OptimizeTold
import Verif.Props.ParserLog
import Verif.Props.ImportText
import Verif.Props.WholeLog
import Verif.Props.UpdateLogExact
import Verif.Props.PanicExact
import Verif.Props.TimedImport
import Verif.Props.UsageText
import Verif.Props.ToolRun
import Verif.Props.ImportLevels
