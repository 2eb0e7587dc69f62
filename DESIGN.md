# Formal model of enthought/sat-solver (simplesat) in Lean 4

## 1. Shape of the model

Everything is a shallow, executable model: total computable Lean functions over `Int`, `Nat`, `List`,
`Option` and plain structures.  A Python method that mutates `self` becomes a function returning the new
state; a Python exception becomes a value (`Except`); a `while` loop or a recursion becomes structural recursion or,
when termination is itself a property, a function with a fuel argument together with a theorem that the fuel the model
passes is enough (so that the value "out of fuel" is never returned).

Each definition cites the file and lines of /repo it models and says where it simplifies.  Files named `Model.lean`,
and those in the second column below, contain the model; files named `*Spec.lean` contain the vocabulary of the
specifications, written over packages, clauses, graphs or strings and not over the helpers of the model; `Props/*.lean` contain the property theorems
(`Cnn_...`), their concrete instances (`example`) and the counterexamples; everything else is proof.

| Python source | Model | Theorems |
|---|---|---|
| `sat/clause.py`, `sat/minisat.py` (MiniSATSolver) | `Sat/Model` | `Props/SatCore` |
| `sat/assignment_set.py` | `AssignmentSet`, `AssignmentObjects` | `Props/Assignments`, `Props/AssignmentObjects` |
| `sat/policy/*.py` | `Sat/PolicyModel` | `Props/Policies`, `Props/PolicyHistory`, `Props/Renumber` |
| `sat/policy/policy_logger.py` | `Sat/Logger`, `Sat/Report`, `Sat/LoggerText`, `Sat/ReportText`, `Props/Histogram` (`Log.mostCommon`) | `Props/Logger`, `Histogram`, `Report`, `LoggerText`, `ReportText` |
| `sat/minisat.py` (UNSAT), `errors.py`, `rules_generator.py` (`to_string`) | `Solve/Unsat` | `Props/Unsat`, `UnsatCore`, `UnsatExamples`, `RuleText` |
| `utils/graph.py` | `Graph/Model`, `Graph/Lazy`, `Solve/CycleText` | `Props/Graphs`, `Props/Cycles`, `Props/Searches` |
| `constraints/kinds.py, multi.py, requirement.py, constraint_modifiers.py` | `Pkg/Version`, `Pkg/Constraints` | `Props/Constraints` |
| `constraints/parser.py`, text side of `requirement.py`, `kinds.py` | `Text/Regex`, `Text/Parser` | `Props/Text`, `TextExamples`, `Grammar`, `GrammarExamples` |
| `constraints/package_parser.py` | `Text/Package` | `Props/PackageText`, `PackageTextExamples` |
| `package.py`, `repository.py` | `Pkg/Package`, `Pkg/Repository`, `Pkg/RepositoryIter` | `Props/Repositories`, `Props/Iteration` |
| `pool.py`, `request.py` | `Pkg/Pool`, `Pkg/LivePool`, `Props/PoolIteration` (`Pool.iterPackages`) | `Props/Pools`, `Refused`, `PoolHistory`, `PoolIteration` |
| `utils/_collections.py` | `Utils/DefaultDict` (and `Pkg/LivePool`) | `Props/DefaultDict` |
| `rules_generator.py` | `Rules/Model`, `Rules/Again` | `Props/RulesGen`, `Props/RulesAgain`, `Props/Total`, `Props/Size` |
| `transaction.py` | `Solve/Transaction`, `Solve/TransactionText` | `Props/Transactions`, `Props/TransactionText`, `Props/Interrupted` |
| sets, modifiers, requests and pool as objects that refer to one another | `Solve/Objects` | `Props/Aliasing` |
| `dependency_solver.py` (DependencySolver) | `Solve/Model`, `Solve/Session`, `Solve/Shared`, `Solve/Timed` | `Props/Solve`, `Total`, `History`, `Monotone`, `Metamorphic`, `Local`, `Shared`, `Timers`, `RepositoryOrder`, `Removal`, `Pruned`, `Resumed`, `Assumed`, `Apart`, `Separate` |
| `dependency_solver.py` (solve_with_hint, minimal_unsatisfiable_subset) | `Solve/Mus`, `Solve/MusCalls`, `Solve/Model` | `Props/Mus`, `Props/Hints`, `Props/Cost` |
| `dependency_solver.py` (module functions) | `Solve/Functions`, `Solve/Iterables` | `Props/Functions`, `Props/Iterables` |
| `compute_dependencies.py` | `Solve/Compute` | `Props/Compute` |
| all of these, with names parsed from text | `Rules/Named`, `Solve/Named`, `Text/Readers` | `Props/Named`, `NamedExamples` |
| `examples/van_der_waerden.py` | `Sat/Waerden` | `Props/Waerden` |
| `tools/minisat_helpers.py` | `Solve/Minisat` | `Props/Minisat` |
| `utils/_composer_utils.py` | `Text/Composer` | `Props/Composer` |
| `test_utils.py` (packages listed one per line) | `Text/Definition` | `Props/Definition` |
| `test_utils.py` (scenario files, once loaded) | `Scenario/Model` | `Props/Scenarios`, `ScenarioExamples` |
| `.github/actions/*/utils/*.py` (making releases) | `Release/Model` | `Props/Release` |
| Python lists, dictionaries, stable sorting | `Py`, `PyDict`, `PyMap`, `PySort` | |

## 2. Parameters and assumptions

These are variables of the theorems, not axioms.

* **Versions.** Upstream versions are an arbitrary type `U` with a `LinearOrder`; an `EnpkgVersion` (okonomiyaki, not in
  /repo) is a pair (upstream, build number) ordered lexicographically.  In the text layer `EnpkgVersion.from_string`
  and `str` are the class `VersionText`, arbitrary functions; where a theorem needs that a version can be printed and
  read back it says so (`Printable`).
* **Names** are an arbitrary type `N` with a `LinearOrder` (strings in the text layer).  Outside the text layer, where the code
  writes a name (and a version) into a string and parses it, the model takes the requirement for that name: this is an
  assumption on names, removed by `Rules/Named`, `Solve/Named`, `Text/Readers`, where the parsers are arguments.  C102 says for
  which names the two models agree, and what happens for the others.
* **Constraint strings of packages** are an arbitrary type `S` with an arbitrary parser into constraints which may fail
  (`[Parse S U]`-style parameters); the text layer gives the instance for character strings and proves facts about it.
* **Set iteration order** is an arbitrary permutation, one oracle per place where the code iterates over a set
  (`Orders`, `XOrders`), quantified universally: every theorem about `solve` holds for all of them.
* **Decision policy.** The theorems of the SAT core hold for every policy, a state machine with the contract that it
  suggests an unassigned variable of the problem when there is one; the policy of the code is proved to meet it.
* **Characters.** `\w`, `\d` and `\s` are an arbitrary `CharTable` with a few facts about ASCII characters;
  `re.Scanner` compiles without the flag for Unicode, so its `\w` and `\d` are those of ASCII (`asciiTable`).  Python's
  regular expressions are modelled by the list of matches in backtracking order (`Text/Regex`); this semantics was
  compared with CPython's `re` on random strings for the patterns of the parser while it was written (not part of the proof).
* **Printing.** The text of a package or requirement in a message is a parameter (`Texts`) in the theorems about explanations.

* **Validation of the reading of /repo.**  The scenario files of the test suite were run through the model while it was written
  (compiled, outside /verif; not part of the proof): for every scenario used by `tests/test_scenarios_policy.py` that was run
  (about 40, up to several thousand packages) the model gives the operations, their order, the pretty operations, and for
  unsatisfiable ones the requirements and the text of the explanation that the file expects.
* **Equal versions are one version.**  okonomiyaki's `1.0` and `1.0.0` compare equal but print differently; in the model versions
  that compare equal are the same value.

## 3. What is not modelled

* Python's recursion limit, memory and time (of `timed_context` the state and the text are modelled, the clock is arbitrary), logging, `repr`s (except of packages), the layout of the assignment changes in `policy_logger`'s report.
* Aliasing outside `C63` (the pool), `C116` and `C117` (sets of names, modifiers, requests and the pool) and `C119` (repositories
  that change after the pool was made): elsewhere arguments and results are values.
* Wrong argument types (only the `TypeError`s that the code itself causes are values of the model).
* `scripts/` (except the conversions in `scenario_to_dimacs.py`, `C93`), `tools/` (except `minisat_helpers.py`), `old/`, `docs/`, `.github/` (except the two release programs, C132, C133), the loading of YAML,
  the templates and commands that run PHP Composer, the program minisat (C112 assumes that it is correct, `CorrectMinisat`).
* The exact wording of messages, except for what NoPackageFound and its subclasses name (`C91`), explanations (`C65`, `C88`), transactions (`C87`), hints (`C99`), cyclic dependencies (`C118`) and requirement, constraint and package strings.

## 4. How each property is proved

* **C01-C05, C07-C10 (SAT core)**: the solver is modelled with a heap of mutable clauses (clause ids), watch lists, trail,
  levels, reasons.  Invariant (`Sat/Inv`): watch lists index exactly the first two literals; a false watched literal is
  pending or its partner is true at no higher level; the trail is justified; every clause is entailed by the input.  Preserved
  by propagate / analyze / cancel_until / record / assume.  Termination: the weight of the trail (sum of (n+2)^(n-level))
  strictly increases at each turn and is bounded.
* **C06**: the code violates it (`status` is never read): witness, and what happens instead.
* **C11-C13**: invariant by induction over operation sequences; refinement to a function from variables to values.
* **C14-C16, C57-C59**: model of UndeterminedClausePolicy and its logger with arbitrary set order; a package preferred over
  all others is kept if possible because trail literals are entailed by decisions; lexicographic order by induction.
* **C17-C21**: graph algorithms with fuel; layering and cycles by well-founded descent, breadth-first search by the level
  invariant, transitive neighbours by depth-first invariants (false on cyclic graphs, except for keys that share nothing with the keys
  before them, `Graph/TransFirst`).
* **C22, C23, C50**: recursion and induction on size; C50 composes with C40.
* **C24-C28, C60**: pure functions, case analysis; histories by induction.
* **C29, C54, C55, C68, C69, C71, C72**: regular expressions as lists of matches; each pattern gets a characterisation of its matches on
  the strings in question, the scanners and splitters one by induction.
* **C70**: membership in ranges, then C05.
* **C73**: the solver only sets variables between two questions (`Sat/Changes.lean`), so the refinement behind C13 carries over
  to the log by induction on the history of the search.
  `most_common()` is a stable sort by count of a Counter whose keys are in the order of first occurrence (`Props/Histogram`).
* **C74**: a congruence: solver states equal but for the changelog stay so under every solver function (`Sat/Transparent.lean`);
  the package policy leaves no new keys behind, so the logger's `consume_changelog` is invisible to it.
* **C75**: induction on the operations, with the specification of C11.
* **C30-C35**: invariants over operation sequences.
* **C36-C39, C56**: worklist invariant over rule generation; the specification `ValidInstall` speaks of packages only;
  termination by counting the packages and requirements still unseen.
* **C40-C43, C48, C49, C61**: composition of rule generation, SAT core, policy, pruning and transaction.
  C41 without pruning: the packages whose rules were generated and that are true form a valid installation; every other true package
  occurs in the rules only as the target of a conflict or as the twin of a name.
* **C44-C47**: transaction model.
* **C51-C53, C62, C64**: composition with `solve` and the graph theorems.
* **C63**: a session is a list of calls on one solver and pool; only the modifiers and memo of the pool change, and
  `solve` overwrites the one and is proved not to depend on the other.
* **C76**: every list that stands for a set is followed through solve: graph, toposort groups (then sorted by id), pruning (a
  closure), `max` and `sorted` by version (order matters for ties only); the three kinds of ties give counterexamples.
* **C77-C79**: corollaries of C40, C41 and C43, by moving a valid installation from one list of packages to another.
  C79 with soft updates: by C58 in both runs, at the newest package on which they differ.
* **C103-C106**: as C77-C79; C104 by case analysis of the tables of modifiers (a constraint that is relaxed twice stays relaxed, a
  conflict that is accepted under more modifiers is unchanged under fewer), C105 by restricting an installation to the packages that
  are not extra, C106 from C56.
* **C107**: a text is related to its lines by an inductive specification (`Written`); it is proved total and functional by induction on
  the text, and the lines are those that are read.  The list of characters that end a line for `str.splitlines` is trusted.
* **C108-C111**: texts of versions and constraints are specified as relations without the loop; the dictionary by induction on the
  requirements; texts are told apart by their first character, the dash and the commas.  Files are a map from paths to lists of entries:
  JSON and failures of `open` are not modelled.
* **C112**: the text is read back with the reader of the DIMACS format of C93; the program is a function of the text about which only
  `CorrectMinisat` is assumed (the files between it and the code are not modelled); C36 and C37 turn answers into installations.
* **C113, C114**: a simulation: an increasing renumbering of the variables commutes with every function of the SAT solver
  (`Sat/Rename.lean`), and the numbers of the packages that can be reached with every function of rule generation, pruning and
  transaction (`Rules/Rename.lean`, `Solve/Rename.lean`); both pools are compared with the pool of the packages that can be reached
  (`Solve/Local.lean`).  The orders of sets in one run are carried to the other one.
* **C115**: the functions of C63 with a callback that has effects, which notes its calls (`Solve/MusCalls.lean`); induction on
  the depth of the recursion.
* **C116, C117**: sets, modifiers and requests as objects in a store that refer to one another (`Solve/Objects.lean`); no set
  belongs to two modifiers objects (an invariant of all calls), so that each call changes one value. C63 gives the answers of `solve`.
  C117 is violated because the pool keeps a reference to the modifiers of the request.
* **C118**: what remains in the loop of `toposort` is the graph without what was yielded (`topoLoop_rest`); a finite set in which
  everything has a successor leads to a cycle. For transactions, literals and packages correspond one to one.
* **C119**: the remote repositories enter `solve` only through the jobs that replace an upgrade, and these depend only on the newest
  versions; the refusals by following `createRules`.
* **C120**: the watched literals. After backtracking, the new clause has one undecided literal and otherwise false ones; a clause with
  no other literals would have a false watched literal without a true partner (or be a unit clause that is not true), which the
  invariant of `Sat/Inv.lean` excludes. `Sat/Learned.lean` follows the list of clauses through a search; the bound counts words over
  three letters.
* **C121**: dictionaries and lists are places in a store.  Independence: a call that names no dictionary of a set A, where no list is
  both inside and outside A, leaves A alone (frame property, induction on the history).  Equal behaviour: a simulation between two
  dictionaries with the same keys, equal lists and the same pattern of sharing.
* **C122**: the operations are removals followed by installs (C44); the first n of them are a prefix of each. A dependency inside one of
  the two phases is ordered in it (C44), one between a kept package and a kept package is untouched; what is left is listed in the
  theorem. Resuming is the monotonicity of C57.
* **C123**: every rule has a reason (`Run.Just`, behind C39), the literals are determined by it, and no two rules have the same literals
  (C38); so the rules inject into a list of all possible clauses, whose length is the bound.
* **C124**: a call of `solve` is cut into its phases (`Solve/Shared.lean`); a schedule is a list of thread numbers. Invariant: what an
  undisturbed call has computed so far is what `solve` computes. Switches within a phase are not modelled.
* **C125**: `breadth_first_search` is a machine that does half a turn of its loop per step (`Graph/Lazy.lean`), so that a consumer can
  stop at any step. Invariant: a dictionary given by the caller only takes its keys out of the graph. Fairness: a finite set of nodes
  is left after finitely many steps, applied to the ends of all walks up to a length. `neighbor_func` is a function there (it does not
  raise); for `connected_nodes` it may raise.
* **C126**: an iterable is a container or an iterator, and reading it gives its elements and what is left of it (`Solve/Iterables.lean`);
  the functions of C51, C53, C62, C64 are written again with their reads in the order of the code. For containers they are the
  functions of `Solve/Functions` (C126_containers). The violations are proved for all packages and requirements, not for one witness.
* **C127**: the generator of `__iter__` is a cursor (a position in the list of names and one in the list of a name) that looks at
  the live lists (`Pkg/RepositoryIter.lean`). Invariants: what is still to come only grows when a package is added; and, if packages
  are added behind it, what was yielded is what lies before the cursor.
* **C128**: `iterRulesAgain` begins with the rules that the generator has (`Rules/Again.lean`). The generator only looks at the rules to
  see whether literals are there already, so that a run on top of some rules simulates a run of a new generator (`Rules/AgainLemmas.lean`,
  after the pattern of `Rules/Alike.lean`).
* **C129**: the dictionaries and sets of AssignmentSets get places in a store (`AssignmentObjects.lean`). Invariant: two
  AssignmentSets have no dictionary or set in common but perhaps a changelog, and changelogs are never written to. Each call is then
  the one of `AssignmentSet.lean` on what the object has (refinement), which makes C11-C13, C75 and C98 statements about objects.
* **C130**: `solveTimed` repeats `solve` with the three `with` statements, the clock being an arbitrary sequence of readings
  (`Solve/Timed.lean`); it is shown to return what `solve` returns, by cases on where it raises.
* **C131**: a valid installation depends on the available packages as a set, except for the target of a hard update; the jobs of an
  upgrade are the same set of jobs; with C40 and C61 this settles satisfiability. For another order of additions: repositories
  iterate, find and contain the same, so the pools are equal, and `solve` sees nothing else.
* **C132**: the server is a list of releases with named assets; an oracle says for every request whether it is carried out and whether
  its answer arrives, so that every failure and every crash point is one of its values (a crash between requests looks to the server
  like the next request getting lost). Induction over the files with an invariant on the assets. Trusted about the server: the first 30
  releases are listed, newest first; a second asset of a name is refused; names are kept; no other client is active.
* **C133**: the same server as for C132; the retry loop runs on an arbitrary clock that advances at least by the time slept
  (`Sleeps`), and 10+20+...+1280 ms exceed the two seconds within eight attempts. The rest is by cases on the oracle.
* **C134**: `Doomed` is the least set of packages that cannot stay; no valid installation contains one of them. If nothing can replace
  them, the installed packages that are not doomed are a valid installation, so that the preference order (C57) keeps them all; pruning
  can then only reach kept packages (as for C43). Satisfiability: the empty installation.
* **C135**: `Solver.interrupted` is the state in which an exception from outside leaves the solver, between two turns or when the policy is
  asked (`cutShort` is an exception within `propagate`, for the witnesses; one within `analyze`, `cancel_until` or `record` is not modelled). The loop invariant (C01) is proved for
  every root level, so that a search can begin in any such state; a conflict at the root level is refuted by the rules and the
  decisions in force (`conflict_root`).
* **C136**: the states of `Assumed` satisfy the loop invariant with their own level as the root level (as for C135), and the decisions in
  force are the assumptions.
* **C137**: what the search has decided about the other packages, joined with the installed packages of the set, is a valid installation
  too, so by the lexicographic preference (C57) none of them is decided out; what pruning leaves is the least set closed under
  dependencies, and its roots are installed or requested.
* **C138**: one part of a valid installation, joined with the other part of another one, is a valid installation (`mix_valid`); with C40,
  C61 and C50 this settles satisfiability and hints. What is kept: the first package, by version, about which two runs differ could be
  kept in both by the mixed installation, against the lexicographic preference (C57); what is chosen: the same with the newest requested
  package about which they differ (C58).
* **C139**: invariant of `add_repository`: the values of the dict of ids are the packages in the order of their addition, the keys of
  the dict of packages are the first ones among equal packages (`IterInv`). Violated for equal packages (`C139_violated`).
* **C140**: the words of a padded text are those of the text, and words of texts that are joined by blanks are joined; with the
  reading of numerals from C93. `Sat/LoggerText` models the layout of the lines about packages and of the histogram,
  `Sat/ReportText` that of the report without assignments.
* **C84, C85**: C57 and C58, through the model of the rules that a valid installation is (C36); for C85 packages of the same name
  and version are exchanged in the other installation.
* **C86**: induction on the packages that are added, with a relation between the pool before and after.
* **C87**: the text is cut at line feeds, blanks, quotes and the last two dashes; what is cut off contains none of them.
* **C88**: every rule is justified (C37); each kind of justification gives a fact, and the words of the rule are those of the fact.
  Lines are cut apart as in C87.
* **C89, C90**: a pool as an object under calls (`Pkg/LivePool`); a relation between the pool that was asked and the one that was
  not (extra empty entries), or between the original and the copy (no factory), is kept by every call.
* **C91, C92**: the functions that raise are modelled a second time with the attribute `requirement` and the named package; forgetting
  these data gives the first model (C91_same).  C91 follows the origin of each package of the worklist, C92 the packages whose
  rules were added.
* **C93**: a reader for DIMACS is part of the specification; reading what was written gives the clauses back (numerals and cuts at
  blanks and line feeds).  The clauses are those of C37; an answer is turned into the assignment that C41's proof starts from.
* **C94**: the solver asks the pool once per job; equal answers give equal rules (up to the jobs named in the reasons) and then
  equal runs, step by step (`Rules/Alike`).
* **C95**: evaluation, for every input.  **C96**: the state after a successful search is a fixed point of every call
  (`Sat/Again`); witnesses by evaluation.
* **C97**: one type of all objects that can be compared, with Python's protocol (NotImplemented, the reflected method); case
  analysis.  **C98**: the refinement behind C11.  **C99**: lines are cut apart as in C87; the jobs are those of C50.
* **C100**: from C73, with the history of the search extended by the number of conflicts between two questions; without a conflict
  no value is lost (induction on propagation).
* **C101**: which characters a pattern can consume, by recursion on the pattern; the scanners have the table of ASCII
  (`asciiTable`), the patterns compiled by `re.compile` that of Unicode.
* **C102**: the generator, the transaction and `solve` once more with the parsers as arguments; they agree with the first model by
  following it function by function (`Solve/NamedLemmas`); which names are read as themselves follows from C72.
* **C80-C83**: induction on the lists of the document; C83 composes them with C40 and C41.
* **C65-C67**: model of the provenance kept by `analyze` and of the `UNSAT` object; `details` is proved to be exactly the
  involved clauses, which refute the conflicting literal.

Where the code violates a property, a theorem with a concrete counterexample (`decide`/`rfl` by the kernel) stands beside
the part that is proved, whose name ends in `_partial`, and MANIFEST.json says what is missing.  All partial claims are of this kind.

## 5. Trusted base

Lean's kernel; the axioms `propext`, `Classical.choice`, `Quot.sound` and no others (no compiled evaluation); the reading of
/repo embodied in the definitions of the model (each cites file and lines); the assumptions of section 2.  Mathlib is used for
lists, orders and finite sets, and is checked by the same kernel.  The statements rest on the specification files
(`Sat/Spec`, `Graph/Spec`, `Pkg/*Spec`, `Rules/Spec`, `Solve/Spec`, `Solve/UnsatSpec`, `Solve/DimacsSpec`, `Text/Spec`, `Text/PackageSpec`, `Text/GrammarSpec`, `Sat/Waerden`, `Scenario/Spec`) and the definitions at the head
of `Props/*.lean`.

Wrong programs: /verif/seeded/LOG.jsonl records, for each edit of the model that a realistic bug would make, which theorems
no longer prove.
