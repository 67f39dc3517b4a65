import Verif.Props.LengthenedPrint
import Verif.Props.EvaluatedEdits
import Verif.Props.PartsFiles
import Verif.Props.StatsTitles
import Verif.Props.Nameless
import Verif.Props.Selected
import Verif.Props.CollectSound
import Verif.Props.CompDbIncludes
import Verif.Props.CompDbOnce
import Verif.Props.PrintEnds
import Verif.Props.DwyuSole
import Verif.Props.Documented
import Verif.Props.Lengthened
import Verif.Props.Spelling
import Verif.Props.Extended
import Verif.Props.Parens
import Verif.Props.Appended
import Verif.Props.Trailing
import Verif.Props.Targets
import Verif.Props.PackageForm
import Verif.Props.Patterns
import Verif.Props.LineCol
import Verif.Props.Scanner
import Verif.Props.WordEnds
import Verif.Props.Parser
import Verif.Props.Literals
import Verif.Props.Elab
import Verif.Props.ElabCrash
import Verif.Props.Query
import Verif.Props.Containers
import Verif.Props.Project
import Verif.Props.Headers
import Verif.Props.Workspace
import Verif.Props.Includes
import Verif.Props.Dwyu
import Verif.Props.DwyuMessages
import Verif.Props.FirstError
import Verif.Props.DepGraph
import Verif.Props.GraphCrash
import Verif.Props.FileUtils
import Verif.Props.Collect
import Verif.Props.ThreadPool
import Verif.Props.Prewarm
import Verif.Props.FsPath
import Verif.Model.Print
import Verif.Model.PrintProject
import Verif.Spec.Print
import Verif.Lemmas.ParserCalls
import Verif.Lemmas.Relex
import Verif.Lemmas.PrintParts
import Verif.Lemmas.PrintFits
import Verif.Lemmas.PrintParses
import Verif.Lemmas.PrintTrees
import Verif.Lemmas.PrintFile
import Verif.Lemmas.PrintCommand
import Verif.Lemmas.PrintSelect
import Verif.Props.Print
import Verif.Model.Glob
import Verif.Spec.Glob
import Verif.Lemmas.Glob
import Verif.Lemmas.GlobMeaning
import Verif.Props.Glob
import Verif.Model.Table
import Verif.Spec.Table
import Verif.Lemmas.Table
import Verif.Lemmas.TableColumns
import Verif.Props.Table
import Verif.Model.Cli
import Verif.Spec.Cli
import Verif.Lemmas.Cli
import Verif.Lemmas.CliOptions
import Verif.Props.Cli
import Verif.Spec.Script
import Verif.Lemmas.Script
import Verif.Props.Script
import Verif.Model.WorkspaceCmd
import Verif.Spec.WorkspaceCmd
import Verif.Lemmas.WorkspaceCmd
import Verif.Props.WorkspaceCmd
import Verif.Model.CompDb
import Verif.Spec.Json
import Verif.Spec.CompDb
import Verif.Lemmas.Json
import Verif.Lemmas.CompDb
import Verif.Lemmas.CompDirs
import Verif.Lemmas.Bazelrc
import Verif.Props.CompDb
import Verif.Model.Ordered
import Verif.Lemmas.Ordered
import Verif.Lemmas.DepGraphOrder
import Verif.Model.Commands
import Verif.Spec.CommandOutput
import Verif.Spec.Commands
import Verif.Lemmas.Commands
import Verif.Lemmas.CommandFiles
import Verif.Lemmas.CommandOutput
import Verif.Lemmas.CommandRows
import Verif.Props.Commands
import Verif.Props.CommandOutput
import Verif.Props.CommandSteps
import Verif.Props.Stable
import Verif.Props.CommandEdits
import Verif.Spec.Invariance
import Verif.Lemmas.Invariance
import Verif.Props.Invariance
import Verif.Spec.Layout
import Verif.Lemmas.Layout
import Verif.Lemmas.LayoutScan
import Verif.Lemmas.LayoutParse
import Verif.Spec.SameProject
import Verif.Lemmas.LayoutCommand
import Verif.Props.Layout
import Verif.Spec.SameRules
import Verif.Spec.Restyled
import Verif.Spec.Refactored
import Verif.Lemmas.SameRules
import Verif.Lemmas.SameRulesCommand
import Verif.Lemmas.Restyled
import Verif.Lemmas.Refactored
import Verif.Props.SameRules
import Verif.Props.Globbed
import Verif.Spec.Elsewhere
import Verif.Lemmas.Elsewhere
import Verif.Props.Elsewhere
import Verif.Model.Located
import Verif.Spec.Words
import Verif.Spec.Located
import Verif.Lemmas.LocatedParser
import Verif.Lemmas.LocatedElab
import Verif.Lemmas.LocatedQuery
import Verif.Lemmas.LocatedWords
import Verif.Props.Words
import Verif.Model.LocatedCommands
import Verif.Model.Messages
import Verif.Model.Stderr
import Verif.Lemmas.LocatedRules
import Verif.Lemmas.LocatedCommands
import Verif.Lemmas.StderrKnown
import Verif.Lemmas.StderrGraph
import Verif.Lemmas.StderrFiles
import Verif.Spec.Stderr
import Verif.Props.Located
import Verif.Lemmas.StderrRules
import Verif.Props.Stderr
import Verif.Props.Safe
import Verif.Lemmas.Reports
import Verif.Props.Messages
import Verif.Spec.Expected
import Verif.Props.Expected
import Verif.Spec.Reordered
import Verif.Lemmas.Reordered
import Verif.Lemmas.Swapped
import Verif.Props.Reordered
import Verif.Lemmas.ReorderedDwyu
import Verif.Props.ReorderedDwyu
import Verif.Model.Stats
import Verif.Spec.Stats
import Verif.Lemmas.Stats
import Verif.Lemmas.StatsRun
import Verif.Lemmas.StatsWalk
import Verif.Lemmas.StatsRounds
import Verif.Props.Stats
import Verif.Spec.Evaluated
import Verif.Lemmas.Evaluated
import Verif.Props.Evaluated
import Verif.Spec.Parts
import Verif.Lemmas.Parts
import Verif.Props.Parts
import Verif.Spec.NotIn
import Verif.Lemmas.NotIn
import Verif.Lemmas.Counted
import Verif.Props.NotIn
import Verif.Props.Dots
import Verif.Tests.TypesBazel
import Verif.Tests.Util
import Verif.Tests.Frontend
import Verif.Tests.Tools
