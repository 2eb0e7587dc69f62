import Verif.AssignmentSetLemmas
import Verif.Sat.Setup
import Verif.Sat.Final
import Verif.Props.SatCore
import Verif.Props.Assignments
import Verif.Props.Policies
import Verif.Props.PolicyHistory
import Verif.Props.Graphs
import Verif.Props.Mus
import Verif.Props.Constraints
import Verif.Props.Repositories
import Verif.Props.Pools
import Verif.Props.RulesGen
import Verif.Solve.Model
import Verif.Props.Transactions
import Verif.Solve.SetupLemmas
import Verif.Solve.SolveSpec
import Verif.Solve.PruneLemmas
import Verif.Solve.ResultLemmas
import Verif.Solve.TwinLemmas
import Verif.Solve.Check
import Verif.Props.Solve
import Verif.Props.Hints
import Verif.Rules.Total
import Verif.Solve.Total
import Verif.Props.Total
import Verif.Solve.Functions
import Verif.Props.Functions
import Verif.Solve.Compute
import Verif.Props.Compute
import Verif.Solve.Session
import Verif.Props.History
import Verif.Text.Regex
import Verif.Text.Parser
import Verif.Text.Spec
import Verif.Text.Lemmas
import Verif.Text.Scan
import Verif.Text.Example
import Verif.Props.Text
import Verif.Props.TextExamples
import Verif.Sat.Prov
import Verif.Sat.ProvEntails
import Verif.Solve.Unsat
import Verif.Solve.UnsatLemmas
import Verif.Solve.UnsatSpec
import Verif.Solve.UnsatText
import Verif.Solve.UnsatComplete
import Verif.Props.Unsat
import Verif.Props.UnsatCore
import Verif.Props.UnsatExamples
import Verif.Text.Package
import Verif.Text.PackageSpec
import Verif.Text.PackageLemmas
import Verif.Props.PackageText
import Verif.Props.PackageTextExamples
import Verif.Sat.Waerden
import Verif.Props.Waerden
import Verif.Text.Strings
import Verif.Text.GrammarSpec
import Verif.Text.Grammar
import Verif.Text.GrammarParts
import Verif.Text.GrammarRead
import Verif.Props.Grammar
import Verif.Props.GrammarExamples
import Verif.Sat.Logger
import Verif.Sat.Changes
import Verif.Sat.Transparent
import Verif.Props.Logger
import Verif.Solve.Determinism
import Verif.Props.Determinism
import Verif.Props.Monotone
import Verif.Props.Metamorphic
import Verif.Scenario.Model
import Verif.Scenario.Spec
import Verif.Props.Scenarios
import Verif.Props.ScenarioExamples
import Verif.Props.Choice
import Verif.Props.ChoiceExamples
import Verif.Props.Refused
import Verif.Solve.TransactionText
import Verif.Props.TransactionText
import Verif.Props.RuleText
import Verif.Pkg.LivePool
import Verif.Props.PoolHistory
import Verif.Rules.Blame
import Verif.Rules.BlameLemmas
import Verif.Rules.Refuses
import Verif.Solve.Blame
import Verif.Solve.BlameLemmas
import Verif.Props.Blame
import Verif.Solve.Dimacs
import Verif.Solve.DimacsSpec
import Verif.Solve.DimacsLemmas
import Verif.Props.Dimacs
import Verif.Props.DimacsExamples
import Verif.Rules.Alike
import Verif.Props.Alike
import Verif.Props.AlikeExamples
import Verif.Sat.Again
import Verif.Sat.Resume
import Verif.Props.SatAgain
import Verif.AssignmentViews
import Verif.Props.Views
import Verif.Pkg.Equality
import Verif.Props.Equality
import Verif.Solve.HintText
import Verif.Props.HintText
import Verif.Sat.Report
import Verif.Props.Report
import Verif.Text.Find
import Verif.Props.Unicode
import Verif.Props.Find
import Verif.Rules.Named
import Verif.Rules.NamedLemmas
import Verif.Solve.Named
import Verif.Solve.NamedLemmas
import Verif.Text.Readers
import Verif.Props.Named
import Verif.Props.NamedExamples
import Verif.Text.Definition
import Verif.Props.Definition
import Verif.Text.Composer
import Verif.Props.Composer
import Verif.Solve.Minisat
import Verif.Props.Minisat
import Verif.Rename
import Verif.Sat.Rename
import Verif.Rules.Rename
import Verif.Solve.Rename
import Verif.Solve.Local
import Verif.Props.Local
import Verif.Props.Renumber
import Verif.Solve.MusCalls
import Verif.Props.Cost
import Verif.Solve.Objects
import Verif.Solve.ObjectsLemmas
import Verif.Props.Aliasing
import Verif.Solve.CycleText
import Verif.Props.Cycles
import Verif.Props.Snapshot
import Verif.Sat.Learned
import Verif.Props.Learned
import Verif.Props.Unpruned
import Verif.Utils.DefaultDict
import Verif.Utils.DefaultDictLemmas
import Verif.Props.DefaultDict
import Verif.Props.Interrupted
import Verif.Props.Size
import Verif.Props.Shared
import Verif.Props.Searches
import Verif.Props.Iterables
import Verif.Props.Iteration
import Verif.Props.RulesAgain
import Verif.Props.AssignmentObjects
import Verif.Props.Timers
import Verif.Props.RepositoryOrder
import Verif.Release.Model
import Verif.Props.Release
import Verif.Props.Removal
import Verif.Props.Pruned
import Verif.Props.Resumed
import Verif.Props.Assumed
import Verif.Props.Apart
import Verif.Props.Separate
import Verif.Props.PoolIteration
import Verif.Props.Histogram
import Verif.Sat.LoggerText
import Verif.Props.LoggerText
import Verif.Sat.ReportText
import Verif.Props.ReportText
