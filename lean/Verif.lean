import Verif.Props.Charsets
import Verif.Props.TextScanner
import Verif.Props.Buffers
import Verif.Props.Iterators
import Verif.Props.Table
import Verif.Props.Chunks
import Verif.Props.Safety
import Verif.Props.Scanner
import Verif.Props.TagStack
import Verif.Props.HdrParser
import Verif.Props.Printer
import Verif.Props.Text
import Verif.Props.Masks
import Verif.Props.Positions
import Verif.Props.Copies
import Verif.Props.Skips
import Verif.Props.Pointer
import Verif.Model.PathAutomaton
import Verif.Model.PathSelect
import Verif.Spec.Path
import Verif.Proofs.PathAutomaton
import Verif.Proofs.PathBuild
import Verif.Proofs.PathCalls
import Verif.Proofs.PathSelect
import Verif.Proofs.PathVisit
import Verif.Proofs.PathWays
import Verif.Proofs.PathLeaf
import Verif.Proofs.PathCount
import Verif.Proofs.PathLevels
import Verif.Proofs.PathItem
import Verif.Proofs.PathRoutes
import Verif.Proofs.PathFeed
import Verif.Proofs.PathRanged
import Verif.Proofs.PathNames
import Verif.Proofs.PathFuel
import Verif.Props.Path
import Verif.Props.Iterators2
import Verif.Proofs.PathKeep
import Verif.Props.PathScopes
import Verif.Props.PathRanges
import Verif.Props.PathCounts
import Verif.Props.PathNumbers
import Verif.Model.PathParse
import Verif.Spec.PathText
import Verif.Proofs.PathParse
import Verif.Proofs.PathQuiet
import Verif.Proofs.PathGrammar
import Verif.Proofs.PathViews
import Verif.Props.PathParse
import Verif.Spec.Grammar
import Verif.Proofs.Grammar
import Verif.Proofs.Documents
import Verif.Props.Grammar
import Verif.Spec.Tree
import Verif.Proofs.RoundTrip
import Verif.Props.RoundTrip
import Verif.Spec.Copy
import Verif.Proofs.Copy
import Verif.Props.Copy
import Verif.Spec.CopyAny
import Verif.Proofs.CopyAny
import Verif.Props.CopyAny
import Verif.Model.ScanIterator
import Verif.Proofs.ScanIterator
import Verif.Props.ScanIterator
import Verif.Model.Ownership
import Verif.Proofs.Ownership
import Verif.Props.Ownership
import Verif.Model.StdStream
import Verif.Props.StdStream
import Verif.Spec.SameItems
import Verif.Proofs.AnySource
import Verif.Props.AnySource
import Verif.Model.SharedStream
import Verif.Props.SharedStream
import Verif.Spec.PathRange
import Verif.Spec.Pipeline
import Verif.Props.Pipeline
import Verif.Props.Alternatives
import Verif.Model.PathInspect
import Verif.Proofs.PathSafe
import Verif.Props.PathSafe
import Verif.Props.PathGrow
import Verif.Spec.Whole
import Verif.Proofs.ParseSafe
import Verif.Props.ParseSafe
import Verif.Props.PathCopies
import Verif.Props.PathLanguage
import Verif.Spec.Conditions
import Verif.Props.Conditions
import Verif.Model.Output
import Verif.Proofs.Output
import Verif.Props.Output
import Verif.Proofs.Thrown
import Verif.Props.Thrown
import Verif.Spec.Selected
import Verif.Proofs.Selected
import Verif.Props.Selected
import Verif.Props.PathHeader
import Verif.Spec.KeyName
import Verif.Proofs.KeyName
import Verif.Props.KeyName
import Verif.Props.KeySelect
import Verif.Spec.PathListed
import Verif.Proofs.PathListed
import Verif.Proofs.PathUsed
import Verif.Props.PathListed
import Verif.Spec.Declared
import Verif.Props.HeaderUse
import Verif.Proofs.PathInside
import Verif.Props.PathInside
import Verif.Model.PathShow
import Verif.Spec.PathShow
import Verif.Proofs.PathShow
import Verif.Proofs.PathRead
import Verif.Props.PathShow
import Verif.Model.Examples
import Verif.Spec.Examples
import Verif.Proofs.Items
import Verif.Props.Items
import Verif.Proofs.Examples
import Verif.Props.Examples
import Verif.Proofs.ExamplesSelect
import Verif.Props.ExamplesSelect
import Verif.Props.ExamplesText
import Verif.Model.HdrUse
import Verif.Props.HdrUse
import Verif.Spec.ResultIter
import Verif.Model.ResultIter
import Verif.Proofs.ResultIter
import Verif.Props.ResultIter
import Verif.Spec.Pieces
import Verif.Proofs.Pieces
import Verif.Props.Pieces
import Verif.Spec.ItemOrder
import Verif.Proofs.ItemOrder
import Verif.Proofs.HeaderItem
import Verif.Props.ItemOrder
import Verif.Props.AnyInput
import Verif.Spec.Loose
import Verif.Proofs.Accept
import Verif.Proofs.AcceptLang
import Verif.Proofs.AcceptGrammar
import Verif.Proofs.AcceptRun
import Verif.Props.Accept
import Verif.Spec.LooseItems
import Verif.Proofs.AcceptItems
import Verif.Proofs.AcceptItemsRun
import Verif.Props.AcceptItems
import Verif.Proofs.Masked
import Verif.Props.Masked
import Verif.Spec.Unknown
import Verif.Proofs.AcceptRefs
import Verif.Props.AcceptRefs
import Verif.Props.Terminator
import Verif.Proofs.Cut
import Verif.Props.Cut
import Verif.Proofs.FirstError
import Verif.Props.FirstError
import Verif.Spec.HeaderText
import Verif.Proofs.HeaderText
import Verif.Props.HeaderText
import Verif.Model.StmBuild
import Verif.Spec.Builder
import Verif.Proofs.Builder
import Verif.Props.Builder
import Verif.Proofs.BeginItems
import Verif.Props.BeginItems
import Verif.Proofs.Causal
import Verif.Props.Causal
