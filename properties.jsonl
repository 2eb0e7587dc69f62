{"id": "C01", "title": "A returned SAT solution satisfies every clause", "statement": "If MiniSATSolver.from_rules(rules, policy).search() returns an assignment, then that assignment gives a truth value to every variable that occurs in the rules and makes at least one literal of every rule true.", "quantifier": "every finite list of non-empty rules (of any size, with repeated or opposite literals), every decision policy that only suggests undecided variables", "why_tests_cant": "The two-watched-literal bookkeeping, learning and backtracking interact over unboundedly long runs; tests run a few formulas.", "anchors": ["simplesat/sat/minisat.py::MiniSATSolver.search", "simplesat/sat/minisat.py::MiniSATSolver.propagate", "simplesat/sat/clause.py::Clause.rewatch"]}
{"id": "C02", "title": "SatisfiabilityError is raised only for unsatisfiable rules", "statement": "If adding the rules or calling search() raises SatisfiabilityError, then no truth assignment satisfies all of the rules.", "quantifier": "every finite list of rules, every decision policy that only suggests undecided variables", "why_tests_cant": "Refutation soundness is a universally quantified negative: no test can enumerate all assignments of all formulas.", "anchors": ["simplesat/sat/minisat.py::MiniSATSolver.search", "simplesat/sat/minisat.py::MiniSATSolver.analyze", "simplesat/sat/minisat.py::MiniSATSolver.add_clause"]}
{"id": "C03", "title": "The SAT search always terminates", "statement": "search() always stops, after a number of decisions and conflicts bounded by a function of the number of variables.", "quantifier": "every finite list of non-empty rules, every decision policy that only suggests undecided variables from a fixed finite set", "why_tests_cant": "Termination over all formulas and policies cannot be observed by finite runs.", "anchors": ["simplesat/sat/minisat.py::MiniSATSolver.search", "simplesat/sat/minisat.py::MiniSATSolver.record", "simplesat/sat/minisat.py::MiniSATSolver.cancel_until"]}
{"id": "C04", "title": "The SAT search never fails internally", "statement": "Building a solver and calling search() ends either with a returned assignment or with SatisfiabilityError; none of its internal assertions, list or dictionary lookups fails (in particular the watched-literal assertion, the empty-trail access in conflict analysis, and the assertion that the final learned clause is a unit).", "quantifier": "every finite list of non-empty rules, every decision policy that only suggests undecided variables", "why_tests_cant": "Internal asserts guard states reachable only through long sequences of conflicts.", "anchors": ["simplesat/sat/minisat.py::MiniSATSolver.analyze", "simplesat/sat/minisat.py::UNSAT.__init__", "simplesat/sat/clause.py::Clause.rewatch"]}
{"id": "C05", "title": "The SAT solver decides satisfiability", "statement": "search() returns an assignment if and only if the rules have a satisfying assignment, and raises SatisfiabilityError if and only if they have none; the answer does not depend on the order of the rules, the order of literals within them, or the policy.", "quantifier": "every two presentations of the same finite set of non-empty rules, every two policies", "why_tests_cant": "Quantifies over all formulas, orders and policies.", "anchors": ["simplesat/sat/minisat.py::MiniSATSolver.from_rules", "simplesat/sat/minisat.py::MiniSATSolver.search"]}
{"id": "C06", "title": "An empty clause makes the problem unsatisfiable", "statement": "If an empty clause is added to the solver then search() does not return a solution.", "quantifier": "every clause set containing an empty clause", "why_tests_cant": "Tests check the status flag only, not what search() answers afterwards.", "anchors": ["simplesat/sat/minisat.py::MiniSATSolver.add_clause", "simplesat/sat/minisat.py::MiniSATSolver.search"]}
{"id": "C07", "title": "Learned clauses are consequences of the rules", "statement": "At every point of the search, every clause in solver.clauses is true in every assignment that satisfies all of the original rules, and every original rule is still present (up to literal order).", "quantifier": "every reachable solver state during search, every rule list and policy", "why_tests_cant": "Every intermediate state of every run.", "anchors": ["simplesat/sat/minisat.py::MiniSATSolver.analyze", "simplesat/sat/minisat.py::MiniSATSolver.record"]}
{"id": "C08", "title": "Unit propagation is complete and correct", "statement": "Whenever propagate() returns None, no clause of the solver is falsified and no clause has all literals but one false with the last one undecided; whenever it returns a clause, all literals of that clause are false; every literal it adds to the assignment is implied by the clauses and the literals already assigned.", "quantifier": "every reachable solver state, every clause database", "why_tests_cant": "The property depends on an invariant relating watch lists, trail and levels across all histories.", "anchors": ["simplesat/sat/minisat.py::MiniSATSolver.propagate", "simplesat/sat/clause.py::Clause.rewatch"]}
{"id": "C09", "title": "Backtracking restores the assignment", "statement": "After any sequence of decisions and propagations above level n, cancel_until(n) restores exactly the literals that were assigned at levels 0..n, leaving every later variable undecided.", "quantifier": "every reachable solver state and every level", "why_tests_cant": "All histories of nested decisions.", "anchors": ["simplesat/sat/minisat.py::MiniSATSolver.cancel_until", "simplesat/sat/minisat.py::MiniSATSolver.undo_one"]}
{"id": "C10", "title": "validate() accepts exactly the assignments that satisfy every clause", "statement": "validate(solution_map) returns True iff every clause of the solver contains a literal that solution_map makes true, and it returns True for every solution returned by search().", "quantifier": "every clause database and every total assignment of booleans to variables; every search run", "why_tests_cant": "All formulas and assignments.", "anchors": ["simplesat/sat/minisat.py::MiniSATSolver.validate"]}
{"id": "C11", "title": "AssignmentSet is a consistent two-sided map", "statement": "After any sequence of item assignments, item deletions and changelog operations, value(v) and value(-v) are either both None or opposite booleans, and reading a variable gives the value most recently assigned to it (through either sign), or None if it was last assigned None or deleted.", "quantifier": "every sequence of operations on an AssignmentSet with non-zero keys", "why_tests_cant": "All operation histories.", "anchors": ["simplesat/sat/assignment_set.py::AssignmentSet.__setitem__", "simplesat/sat/assignment_set.py::AssignmentSet.__delitem__", "simplesat/sat/assignment_set.py::AssignmentSet.value"]}
{"id": "C12", "title": "AssignmentSet counters agree with its contents", "statement": "len(a) is the number of distinct variables known, num_assigned the number of variables whose value is not None, unassigned_ids exactly the known variables whose value is None, items() lists each known variable once in increasing order with its value.", "quantifier": "every sequence of operations on an AssignmentSet with non-zero keys", "why_tests_cant": "All operation histories.", "anchors": ["simplesat/sat/assignment_set.py::AssignmentSet.__len__", "simplesat/sat/assignment_set.py::AssignmentSet.num_assigned", "simplesat/sat/assignment_set.py::AssignmentSet.unassigned_ids", "simplesat/sat/assignment_set.py::AssignmentSet.items"]}
{"id": "C13", "title": "The changelog is the net difference since it was last consumed", "statement": "get_changelog() maps exactly the variables whose current value differs from their value when the changelog was last consumed (or the set created) to the pair (old value, current value); consume_changelog() returns that and resets it.", "quantifier": "every sequence of assignments by variable, deletions by variable and changelog operations", "why_tests_cant": "All operation histories, including caching effects.", "anchors": ["simplesat/sat/assignment_set.py::AssignmentSet.get_changelog", "simplesat/sat/assignment_set.py::AssignmentSet.consume_changelog", "simplesat/sat/assignment_set.py::AssignmentSet._update_diff"]}
{"id": "C14", "title": "The policy only suggests undecided variables", "statement": "Whenever the solver asks for a decision, the default package policy returns a positive, currently undecided package id occurring in the clauses, the installed packages or the requirements; its own assertion never fires and it never returns None while a known variable is undecided.", "quantifier": "every solver state in which some known variable is undecided, every pool, installed repository and requirement set, every iteration order of Python sets", "why_tests_cant": "All search states and all set orders.", "anchors": ["simplesat/sat/policy/undetermined_clause_policy.py::UndeterminedClausePolicy.get_next_package_id", "simplesat/sat/policy/policy_logger.py::PolicyLogger.get_next_package_id"]}
{"id": "C15", "title": "Installed packages are preferred, then requirements, by version", "statement": "While some installed package that is not being soft-updated is undecided the policy suggests such a package; otherwise, while some package matching a job requirement is undecided it suggests one with the highest version among those.", "quantifier": "every solver state, every pool, every set iteration order", "why_tests_cant": "All search states.", "anchors": ["simplesat/sat/policy/undetermined_clause_policy.py::UndeterminedClausePolicy.get_next_package_id", "simplesat/sat/policy/undetermined_clause_policy.py::UndeterminedClausePolicy._best_candidate"]}
{"id": "C16", "title": "Preferred packages are kept whenever possible", "statement": "If there is a solution of the rules in which all preferred installed packages stay installed, then the solution returned by the solver keeps all of them installed.", "quantifier": "every rule list, every set of preferred packages, every policy that suggests preferred packages before anything else", "why_tests_cant": "The whole search, with learning and backjumping, has to be followed.", "anchors": ["simplesat/sat/minisat.py::MiniSATSolver.search", "simplesat/sat/policy/undetermined_clause_policy.py::UndeterminedClausePolicy.get_next_package_id"]}
{"id": "C17", "title": "toposort yields a correct layering", "statement": "The groups yielded by toposort() are non-empty and pairwise disjoint, each yielded node is a node of the graph, and every dependency of a yielded node other than the node itself was yielded in an earlier group; when no error is raised every node of the graph (keys and dependency-only nodes) is yielded exactly once.", "quantifier": "every finite directed graph", "why_tests_cant": "All graphs.", "anchors": ["simplesat/utils/graph.py::toposort"]}
{"id": "C18", "title": "toposort raises exactly on cycles", "statement": "toposort() raises ValueError iff the graph contains a cycle of length at least two (self-dependencies are ignored).", "quantifier": "every finite directed graph", "why_tests_cant": "All graphs.", "anchors": ["simplesat/utils/graph.py::toposort"]}
{"id": "C19", "title": "connected_nodes is reachability", "statement": "connected_nodes(n, f) terminates on every finite graph and returns exactly the nodes reachable from n by zero or more steps of f; given an already visited set closed under f it returns its union with the nodes reachable from n.", "quantifier": "every finite graph, start node, and set-pop order", "why_tests_cant": "All graphs and pop orders.", "anchors": ["simplesat/utils/graph.py::connected_nodes"]}
{"id": "C20", "title": "breadth_first_search yields one shortest path per reachable target", "statement": "For each target reachable from start exactly one path is yielded; the path begins at start, ends at the target, follows neighbours, and no shorter path exists; unreachable targets yield nothing; the search terminates on finite graphs.", "quantifier": "every finite graph, start node and target set", "why_tests_cant": "All graphs.", "anchors": ["simplesat/utils/graph.py::breadth_first_search", "simplesat/utils/graph.py::backtrack"]}
{"id": "C21", "title": "transitive_neighbors is the transitive closure", "statement": "transitive_neighbors(graph)[n] is exactly the set of nodes reachable from n in one or more steps.", "quantifier": "every finite graph in which each neighbour is itself a key", "why_tests_cant": "All graphs, including cyclic ones, where memoisation during recursion matters.", "anchors": ["simplesat/utils/graph.py::transitive_neighbors", "simplesat/utils/graph.py::_transitive"]}
{"id": "C22", "title": "minimal_unsatisfiable_subset returns a minimal unsatisfiable subset", "statement": "For a monotone callback that accepts the empty set and rejects the input, the result is a sub-collection of the input that the callback rejects, while it accepts every proper sub-collection of the result; the recursion terminates.", "quantifier": "every finite clause sequence, every monotone order-insensitive callback", "why_tests_cant": "All callbacks and sizes.", "anchors": ["simplesat/dependency_solver.py::minimal_unsatisfiable_subset"]}
{"id": "C23", "title": "minimal_unsatisfiable_subset rejects satisfiable input", "statement": "minimal_unsatisfiable_subset raises UnexpectedlySatisfiable iff the callback accepts the whole input.", "quantifier": "every finite clause sequence, every callback", "why_tests_cant": "All callbacks.", "anchors": ["simplesat/dependency_solver.py::minimal_unsatisfiable_subset"]}
{"id": "C24", "title": "Constraint operators have their documented version meaning", "statement": "A requirement matches a version iff the version satisfies every one of its constraints, where ==, !=, >=, >, <=, < compare (upstream, build) in the version order, ^= compares the upstream part only and * accepts everything; matching does not depend on the order or repetition of the constraints.", "quantifier": "every requirement and version, every total order on upstream versions", "why_tests_cant": "All versions and constraint lists.", "anchors": ["simplesat/constraints/kinds.py", "simplesat/constraints/multi.py::MultiConstraints.matches", "simplesat/constraints/requirement.py::Requirement.matches"]}
{"id": "C25", "title": "Constraint modifiers only relax requirements", "statement": "If a package version satisfied a dependency requirement before allow_newer / allow_older / allow_any modifiers were applied, it still satisfies the modified requirement.", "quantifier": "every requirement, every combination of modifiers, every version", "why_tests_cant": "All combinations of constraints, modifiers and versions.", "anchors": ["simplesat/constraints/constraint_modifiers.py::modify_requirement", "simplesat/constraints/constraint_modifiers.py::_modify_install_requirement"]}
{"id": "C26", "title": "Modifiers allow exactly what their name says", "statement": "After allow_newer every version above an accepted version is accepted unless excluded by a != constraint; after allow_older every version below (of the same bound) is; after allow_any, or both allow_newer and allow_older, every version not excluded by a != constraint is accepted; applying the same modifiers again changes nothing.", "quantifier": "every requirement, modifier set and version", "why_tests_cant": "All combinations.", "anchors": ["simplesat/constraints/constraint_modifiers.py::ALLOW_NEWER_MAP", "simplesat/constraints/constraint_modifiers.py::ALLOW_OLDER_MAP", "simplesat/constraints/constraint_modifiers.py::ALLOW_ANY_MAP"]}
{"id": "C27", "title": "Modifiers do not touch other packages, nor jobs", "statement": "A requirement whose package is not a target of the modifiers is returned unchanged, and queries made for jobs (use_modifiers=False) return the same packages whatever the modifiers are.", "quantifier": "every pool, modifier set and requirement", "why_tests_cant": "All pools and requirements.", "anchors": ["simplesat/constraints/constraint_modifiers.py::modify_requirement", "simplesat/pool.py::Pool.what_provides"]}
{"id": "C28", "title": "ConstraintModifiers.update and remove are set operations", "statement": "After any sequence of allow_*, update and remove calls, each of the three sets contains exactly the names added after their last removal; targets is their union; asdict is sorted and independent of insertion order.", "quantifier": "every sequence of modifier operations", "why_tests_cant": "All operation histories.", "anchors": ["simplesat/constraints/constraint_modifiers.py::ConstraintModifiers"]}
{"id": "C29", "title": "Requirements survive the constraint-tuple round trip", "statement": "Requirement.from_constraints(r.to_constraints()) accepts exactly the same versions as r and has the same name, and equals r when no ^= constraint carries a build number.", "quantifier": "every requirement whose versions can be printed and read back", "why_tests_cant": "All requirements and versions.", "anchors": ["simplesat/constraints/requirement.py::Requirement.from_constraints", "simplesat/constraints/requirement.py::Requirement.to_constraints"]}
{"id": "C30", "title": "Iterating a repository yields exactly the added packages, sorted", "statement": "After any sequence of additions, iteration yields every added package as many times as it was added and nothing else, ordered by name and then by version; len() is the number of additions; membership agrees with iteration.", "quantifier": "every sequence of add_package/update calls", "why_tests_cant": "All histories.", "anchors": ["simplesat/repository.py::Repository.add_package", "simplesat/repository.py::Repository.__iter__", "simplesat/repository.py::Repository.__len__", "simplesat/repository.py::Repository.__contains__"]}
{"id": "C31", "title": "Repository iteration does not depend on insertion order", "statement": "Two repositories built from the same packages in different orders iterate identically.", "quantifier": "every list of packages and every permutation of it", "why_tests_cant": "All permutations.", "anchors": ["simplesat/repository.py::Repository.__iter__", "simplesat/repository.py::Repository.add_package"]}
{"id": "C32", "title": "find_package and find_packages find what was added", "statement": "find_packages(name) returns exactly the added packages of that name from lowest to highest version; find_package(name, version) returns a package of that name and version if one was added and raises NoPackageFound otherwise. (Violated: the exception is composed by parsing '<name>-<version>', so for a name with a dash SolverException is raised instead.)", "quantifier": "every sequence of additions, every name and version", "why_tests_cant": "All histories.", "anchors": ["simplesat/repository.py::Repository.find_package", "simplesat/repository.py::Repository.find_packages"]}
{"id": "C33", "title": "Pool identifiers are unique and stable", "statement": "Package ids are the consecutive integers from 1; id_to_package(package_id(p)) == p for every package p of the pool, package_id raises ValueError exactly for packages not in the pool, and adding a repository never changes the package an id refers to.", "quantifier": "every sequence of repositories added to a pool", "why_tests_cant": "All histories, including packages present in several repositories.", "anchors": ["simplesat/pool.py::Pool.add_repository", "simplesat/pool.py::Pool.package_id", "simplesat/pool.py::Pool.id_to_package"]}
{"id": "C34", "title": "what_provides returns exactly the matching providers", "statement": "what_provides(r) returns exactly the packages of the pool that provide the name of r (their own name or a declared provides) and whose version matches r after modification, in the order they were added.", "quantifier": "every pool, modifier set and requirement", "why_tests_cant": "All pools.", "anchors": ["simplesat/pool.py::Pool.what_provides", "simplesat/pool.py::Pool.modify_requirement"]}
{"id": "C35", "title": "A request never mixes an upgrade job with other jobs", "statement": "After any sequence of install/remove/soft_update/hard_update/upgrade calls (including failing ones) a request that contains an upgrade job contains nothing else, a rejected call leaves the request unchanged, and accepted jobs are kept in call order.", "quantifier": "every sequence of request calls", "why_tests_cant": "All call histories.", "anchors": ["simplesat/request.py::Request._add_job"]}
{"id": "C36", "title": "Generated rules are sound for installations", "statement": "Every set of packages that is a valid installation for the request (jobs satisfied, every member's dependencies provided by other members, no two members of one name, no declared conflicts) satisfies every generated rule.", "quantifier": "every pool, request, installed set and modifier set", "why_tests_cant": "All package universes.", "anchors": ["simplesat/rules_generator.py::RulesGenerator.iter_rules"]}
{"id": "C37", "title": "Generated rules are complete for installations", "statement": "From every truth assignment satisfying all generated rules one obtains a valid installation for the request, by keeping the selected packages whose rules were generated.", "quantifier": "every pool, request, installed set and modifier set", "why_tests_cant": "All package universes.", "anchors": ["simplesat/rules_generator.py::RulesGenerator.iter_rules", "simplesat/rules_generator.py::RulesGenerator._add_install_requires_rules", "simplesat/rules_generator.py::RulesGenerator._add_conflicts_rules"]}
{"id": "C38", "title": "Rule generation terminates and never repeats or empties a rule", "statement": "iter_rules() terminates on every pool, including cyclic dependencies; it never yields two rules with the same literals, nor a rule without literals, and every literal denotes a package of the pool.", "quantifier": "every finite pool, request and installed set", "why_tests_cant": "All package universes, including cyclic ones.", "anchors": ["simplesat/rules_generator.py::RulesGenerator._add_package_rules", "simplesat/rules_generator.py::RulesGenerator._add_rule"]}
{"id": "C39", "title": "Every rule's requirement trail starts at a job", "statement": "Every rule that carries requirements starts its trail with the requirement of a job of the request, and rules generated only because of installed packages carry none; hence every requirement reported by an UNSAT explanation is one of the user's job requirements and every reported rule is one of the generated rules.", "quantifier": "every pool, request and unsatisfiable run", "why_tests_cant": "All failing runs.", "anchors": ["simplesat/rules_generator.py::RulesGenerator", "simplesat/sat/minisat.py::UNSAT.requirements", "simplesat/sat/minisat.py::UNSAT.rules"]}
{"id": "C40", "title": "solve reports unsatisfiable exactly when no valid installation exists", "statement": "DependencySolver.solve(request) raises SatisfiabilityError only if no valid installation exists for the request, and whenever it reaches a solution a valid installation exists.", "quantifier": "every pool, repositories, installed set and request", "why_tests_cant": "All package universes.", "anchors": ["simplesat/dependency_solver.py::DependencySolver.solve", "simplesat/dependency_solver.py::requirements_are_satisfiable"]}
{"id": "C41", "title": "Applying the transaction gives a valid installation", "statement": "Applying the operations returned by solve(request) to the installed packages gives a set in which every install/update job is satisfied, no removed requirement is provided, every package's dependencies are met, no two packages share a name and no declared conflict is violated.", "quantifier": "every pool, installed set and request for which solve returns (with pruning, the default)", "why_tests_cant": "All package universes and searches.", "anchors": ["simplesat/dependency_solver.py::DependencySolver.solve", "simplesat/dependency_solver.py::_connected_packages", "simplesat/transaction.py::Transaction"]}
{"id": "C42", "title": "Pruning never installs an unrelated package", "statement": "Every package the (pruned) transaction installs is reachable, through declared dependencies of packages that are there after the transaction, from a package sharing a provided name with a requested or an installed package; every package it removes was installed.", "quantifier": "every pool, installed set and request", "why_tests_cant": "All package universes.", "anchors": ["simplesat/dependency_solver.py::_connected_packages"]}
{"id": "C43", "title": "Solving an already satisfied request changes nothing", "statement": "If the installed packages already form a valid installation for the request then the returned transaction is empty.", "quantifier": "every pool, installed set and request", "why_tests_cant": "Quantifies over all searches, including conflicts and backjumps.", "anchors": ["simplesat/dependency_solver.py::DependencySolver.solve", "simplesat/sat/policy/undetermined_clause_policy.py::UndeterminedClausePolicy"]}
{"id": "C44", "title": "Transaction operations are well formed", "statement": "All removals come before all installs; only installed packages are removed and only not-installed packages are installed; no package occurs twice; every installed package comes after the packages of the transaction it depends on, and every removed package before them.", "quantifier": "every pool, decision set and installed set", "why_tests_cant": "All decision sets.", "anchors": ["simplesat/transaction.py::Transaction._safe_operations"]}
{"id": "C45", "title": "Applying the operations realises the decisions", "statement": "The package set obtained by applying the operations to the installed packages is, up to replacing a package by an installed one of the same name and version, the installed packages minus those decided out plus those decided in; no package is installed if one of the same name and version is installed already.", "quantifier": "every pool, decision set and installed set", "why_tests_cant": "All decision sets.", "anchors": ["simplesat/transaction.py::Transaction._safe_operations"]}
{"id": "C46", "title": "Pretty operations have the same effect as the operations", "statement": "The pretty operations remove and install the same packages as the operations (an update counting as removing its source and installing its package), and building them never fails.", "quantifier": "every pool, decision set and installed set", "why_tests_cant": "All decision sets, including packages with several providers.", "anchors": ["simplesat/transaction.py::Transaction._as_pretty_operations", "simplesat/transaction.py::Transaction._merge_operations"]}
{"id": "C47", "title": "Cyclic dependencies are rejected, acyclic ones are not", "statement": "If the dependencies among the packages decided in or out (including those that are neither installed nor wanted) form a cycle of two or more packages, building the transaction raises ValueError; if they do not, the operations are computed. A consequence worth knowing: an update whose old and new states are both acyclic can be rejected.", "quantifier": "every pool, decision set and installed set", "why_tests_cant": "All package graphs.", "anchors": ["simplesat/transaction.py::Transaction._safe_operations", "simplesat/utils/graph.py::package_lit_dependency_graph"]}
{"id": "C48", "title": "A hard update installs the newest matching version", "statement": "If solve succeeds for a request with a hard_update job, the newest version in the pool matching the job's requirement is selected.", "quantifier": "every pool, installed set and request", "why_tests_cant": "All package universes.", "anchors": ["simplesat/rules_generator.py::RulesGenerator._add_update_job_rules", "simplesat/dependency_solver.py::DependencySolver._create_rules_and_initialize_policy"]}
{"id": "C49", "title": "An upgrade moves every installed package to the newest remote version", "statement": "If solve succeeds for an upgrade request, then for every installed package with remote candidates a package of that name with the highest remote version is selected; the user's request object is not modified.", "quantifier": "every set of remote repositories and installed set", "why_tests_cant": "All package universes.", "anchors": ["simplesat/dependency_solver.py::_convert_upgrade_request_if_needed"]}
{"id": "C50", "title": "solve_with_hint reports a minimal set of conflicting jobs", "statement": "When solve_with_hint raises SatisfiabilityErrorWithHint, conflicting_jobs is a subset of the request's jobs that is unsatisfiable together while every proper subset of it is satisfiable.", "quantifier": "every pool, installed set and unsatisfiable request", "why_tests_cant": "All requests and subsets.", "anchors": ["simplesat/dependency_solver.py::DependencySolver.solve_with_hint", "simplesat/dependency_solver.py::minimal_unsatisfiable_subset"]}
{"id": "C51", "title": "satisfy_requirements returns an installable, ordered package list", "statement": "satisfy_requirements(packages, requirements, modifiers) returns packages from the input that satisfy every requirement, contain their own dependencies, and list every package after its dependencies.", "quantifier": "every package list, requirement list and modifier set", "why_tests_cant": "All package universes.", "anchors": ["simplesat/dependency_solver.py::satisfy_requirements"]}
{"id": "C52", "title": "compute_dependencies and compute_reverse_dependencies are dual", "statement": "A package q is among the (direct) dependencies of p iff p is among the reverse dependencies of q, leaf packages are exactly those without reverse dependencies, and the transitive variants are the transitive closures.", "quantifier": "every list of repositories", "why_tests_cant": "All package universes.", "anchors": ["simplesat/compute_dependencies.py::compute_dependencies", "simplesat/compute_dependencies.py::compute_reverse_dependencies", "simplesat/compute_dependencies.py::compute_leaf_packages"]}
{"id": "C53", "title": "packages_from_requirements and requirements_from_packages select what they name", "statement": "packages_from_requirements returns, without duplicates, exactly the packages providing some requirement; the requirement generated for a package matches exactly the packages of that name and version.", "quantifier": "every package list and requirement list", "why_tests_cant": "All package lists.", "anchors": ["simplesat/dependency_solver.py::packages_from_requirements", "simplesat/dependency_solver.py::requirements_from_packages"]}
{"id": "C54", "title": "Package full names parse unambiguously", "statement": "parse_package_full_name('<name>-<version>') returns exactly (name, version) for every valid distribution name and version string, every string it accepts consists of a name, a dash or some white space, and a version, and every other string raises SolverException.", "quantifier": "every string", "why_tests_cant": "All strings.", "anchors": ["simplesat/constraints/requirement.py::parse_package_full_name", "simplesat/constraints/parser.py::_DISTRIBUTION_NAME_R", "simplesat/constraints/parser.py::_VERSION_R"]}
{"id": "C55", "title": "Requirement strings parse back to the requirement they print", "statement": "Parsing str(r) gives a requirement with the same name accepting the same versions as r.", "quantifier": "every requirement", "why_tests_cant": "All requirement strings.", "anchors": ["simplesat/constraints/requirement.py::Requirement._from_string", "simplesat/constraints/requirement.py::Requirement.__str__", "simplesat/constraints/parser.py::_RawRequirementParser"]}
{"id": "C56", "title": "Strict mode only raises documented errors", "statement": "With strict=True, generating rules for packages with missing dependencies or conflicts raises only MissingInstallRequires / MissingConflicts (for direct dependencies of job candidates) and otherwise behaves like the default mode.", "quantifier": "every pool, request and installed set", "why_tests_cant": "All package universes.", "anchors": ["simplesat/rules_generator.py::RulesGenerator._add_install_requires_rules", "simplesat/rules_generator.py::RulesGenerator._add_conflicts_rules"]}
{"id": "C57", "title": "Installed packages are kept in lexicographic preference order", "statement": "The default policy keeps installed (preferred) packages greedily in preference order: if a preferred package q is left out of the solution, then no assignment satisfying the rules contains q together with all the preferred packages before q that were kept.", "quantifier": "every rule set, every preference list, every set iteration order", "why_tests_cant": "The claim compares the returned solution with every other solution of every rule set.", "anchors": ["simplesat/sat/policy/undetermined_clause_policy.py::UndeterminedClausePolicy", "simplesat/sat/minisat.py::MiniSATSolver.search"]}
{"id": "C58", "title": "The newest possible matching package is chosen for a job", "statement": "If a package matching a job requirement is left out, then no assignment satisfying the rules contains it together with the preferred packages that were kept and the requirement candidates of the same or a higher version that were chosen.", "quantifier": "every rule set, preference list, requirement candidate list, set iteration order", "why_tests_cant": "The claim compares the returned solution with every other solution of every rule set.", "anchors": ["simplesat/sat/policy/undetermined_clause_policy.py::UndeterminedClausePolicy._best_sorted_candidate", "simplesat/sat/minisat.py::MiniSATSolver.search"]}
{"id": "C59", "title": "After installed packages and requirements, the policy decides packages of open clauses, newest first", "statement": "Once all preferred installed packages and all requirement candidates are decided, the package policy proposes an undecided package occurring in a clause that had no true literal at this or an earlier question; when new variables have just appeared it is one of maximal version among the undecided packages of the currently open clauses; only if no undecided package occurs in an open clause does it propose another one, of maximal version.", "quantifier": "every history of questions put to the policy, every clause list and assignment, every set iteration order", "why_tests_cant": "All histories of questions and all set orders.", "anchors": ["simplesat/sat/policy/undetermined_clause_policy.py::UndeterminedClausePolicy.get_next_package_id", "simplesat/sat/policy/undetermined_clause_policy.py::UndeterminedClausePolicy._refresh_decision_set"]}
{"id": "C60", "title": "Modifiers never change conflicts silently", "statement": "Applying constraint modifiers to an InstallRequirement always succeeds and keeps its name; applied to any other requirement (a package's conflicts) they return it unchanged or raise NotImplementedError, and do raise it for a versioned conflict with a package under allow_any.", "quantifier": "all requirements of every class and all modifier sets", "why_tests_cant": "The combination of constraint kinds, modifier sets and requirement classes is unbounded; the failing combination is rare.", "anchors": ["simplesat/constraints/constraint_modifiers.py::modify_requirement"]}
{"id": "C61", "title": "On well-formed input solve fails only in documented ways and finds a solution if there is one", "statement": "If package metadata is well formed, the installed packages are in the pool and the solver is not strict, then solve raises NoPackageFound exactly if some job matches no package, otherwise raises SatisfiabilityError exactly if no valid installation exists; with pruning on, and packages that provide a common name excluding each other, the only other exception is a ValueError, and when packages provide only their own names, dependencies are acyclic, the installed packages have different names and each name to be removed is installed or removed as a whole, a transaction is returned exactly if a valid installation exists.", "quantifier": "all repositories, installed packages, requests and set iteration orders", "why_tests_cant": "It is a statement about every repository and request: no input may make the solver crash, loop, or miss a solution.", "anchors": ["simplesat/dependency_solver.py::DependencySolver.solve", "simplesat/rules_generator.py::RulesGenerator.iter_rules", "simplesat/transaction.py::Transaction"]}
{"id": "C62", "title": "simplify_requirements keeps what is needed", "statement": "simplify_requirements(packages, requirements) returns exact name-and-version requirements for precisely those packages that match a requirement and on which no matching package depends, each once and in name/version order; when requirements and dependencies are pinned and acyclic, a consistent set of packages meets the simplified requirements iff it meets the original ones, and no simplified requirement is redundant.", "quantifier": "every package list and requirement list", "why_tests_cant": "All package universes and all installations must be compared.", "anchors": ["simplesat/dependency_solver.py::simplify_requirements"]}
{"id": "C63", "title": "A solver can be reused: solve does not depend on earlier solves", "statement": "The outcome of DependencySolver.solve(request) and solve_with_hint(request) is the same whatever requests the same solver and pool have solved before, successfully or not: deleting those calls from any session (which may also add repositories to the pool, set its modifiers, and change the repositories and flags of the solver) changes no later answer, and the answer is that of a solver whose pool is made at once from all the repositories. Solving leaves the repositories, the package ids and the providers of every requirement looked up without modifiers unchanged; its only trace is that the pool then has the modifiers of that request.", "quantifier": "every solver, every session of calls before the request, every request, every set iteration order", "why_tests_cant": "All histories of calls.", "anchors": ["simplesat/dependency_solver.py::DependencySolver.solve", "simplesat/pool.py::Pool.modifiers", "simplesat/dependency_solver.py::DependencySolver.solve_with_hint", "simplesat/pool.py::Pool.add_repository"]}
{"id": "C64", "title": "requirements_are_satisfiable, requirements_are_complete and packages_are_consistent decide", "statement": "requirements_are_satisfiable reports satisfiable iff some consistent subset of the packages meets every requirement; requirements_are_complete iff one made only of packages matching some requirement does; packages_are_consistent iff all packages can be installed together.", "quantifier": "every package list, requirement list, modifier set and set iteration order", "why_tests_cant": "The negative answer is a statement about all subsets of packages.", "anchors": ["simplesat/dependency_solver.py::requirements_are_satisfiable", "simplesat/dependency_solver.py::requirements_are_complete", "simplesat/dependency_solver.py::packages_are_consistent"]}
{"id": "C65", "title": "Explaining a failure never hides it", "statement": "When a request is unsatisfiable, building the explanation carried by SatisfiabilityError raises no other exception, and a request succeeds or fails the same way as without an explanation; its requirements can be read and its text printed, with or without a pool that has the same packages, again and again with the same result, and the text contains every rule of every path with the requirements that led to it.", "quantifier": "every solver, request, set iteration order and way of printing packages and requirements", "why_tests_cant": "Every unsatisfiable request and every run of the solver leads to another explanation.", "anchors": ["simplesat/sat/minisat.py::UNSAT", "simplesat/rules_generator.py::PackageRule.to_string", "simplesat/dependency_solver.py::DependencySolver.solve"]}
{"id": "C66", "title": "The paths of an explanation are chains of rules between jobs and the conflict", "statement": "Each path of an explanation is a chain of rules generated for the request in which neighbours share a package; it starts and ends at a rule made for a job or a rule holding the conflicting literal, and all its rules were involved in deriving the conflict. With fewer than two such end points the only path holds just them; otherwise the paths join pairs of end points, each a shortest chain between its ends.", "quantifier": "every unsatisfiable request, solver and set iteration order", "why_tests_cant": "A statement about all failing runs and all chains of rules.", "anchors": ["simplesat/sat/minisat.py::UNSAT", "simplesat/utils/graph.py::breadth_first_search", "simplesat/dependency_solver.py::DependencySolver.solve"]}
{"id": "C67", "title": "The requirements named by a failure really conflict", "statement": "A SatisfiabilityError names at least one requirement, and the requirements it names conflict: asking for just these requirements fails too. The rules involved in the derivation are enough to refute the conflicting literal.", "quantifier": "every unsatisfiable request, solver and set iteration order", "why_tests_cant": "That the named requirements conflict is a statement about all sets of packages.", "anchors": ["simplesat/sat/minisat.py::UNSAT", "simplesat/sat/minisat.py::MiniSATSolver.analyze", "simplesat/dependency_solver.py::DependencySolver.solve"]}
{"id": "C68", "title": "A package printed as a string is read back", "statement": "PrettyPackageStringParser.parse_to_package(package_to_pretty_string(p)) is the package p: same name, version, install_requires, conflicts and provides. (True when every name has one tuple with one non-empty conjunction, in order of the names, and the strings have no comma, parenthesis, brace or newline; in general the constraint strings for each name are kept in order, but several conjunctions become one, and an empty one is lost.)", "quantifier": "every package whose name, version and constraint strings can be written in the format", "why_tests_cant": "All packages.", "anchors": ["simplesat/constraints/package_parser.py::PrettyPackageStringParser.parse_to_package", "simplesat/constraints/package_parser.py::package_to_pretty_string", "simplesat/package.py::PackageMetadata._from_pretty_string"]}
{"id": "C69", "title": "A package string is read as it is written, or refused with ValueError", "statement": "A string made of a name, blanks, a version and blocks '; kind (name constraint, ...)', with any white space around the parts, gives the package with that name and version and exactly the constraints written; an unknown kind, a bad version, or anything else before the first semicolon raises ValueError, and no other exception is ever raised. (Violated: of two blocks of one kind the first is ignored, and what is not a block is ignored.)", "quantifier": "every string; every package string of the documented form", "why_tests_cant": "All strings, all layouts.", "anchors": ["simplesat/constraints/package_parser.py::PrettyPackageStringParser.parse", "simplesat/constraints/package_parser.py::CONSTRAINT_BLOCK_RC", "simplesat/constraints/package_parser.py::_parse_preamble"]}
{"id": "C70", "title": "van_der_waerden(j, k, n) generates the van der Waerden problem", "statement": "For j, k >= 2 the clauses of van_der_waerden(j, k, n) are satisfied exactly by the two-colourings of 1..n without a j-term arithmetic progression of the first colour and without a k-term one of the second; the solver finds a solution of them iff there is such a colouring.", "quantifier": "every j, k >= 2 and n, every policy", "why_tests_cant": "A statement about all colourings and all progressions.", "anchors": ["simplesat/examples/van_der_waerden.py::van_der_waerden", "simplesat/sat/minisat.py::MiniSATSolver.search"]}
{"id": "C71", "title": "Constraint strings mean what is written", "statement": "A constraint string is accepted exactly when it is white space, or made of parts between commas, each of them white space, '*', or an operator (==, !=, >=, >, <=, <, ^=) and a version, with any white space around a part and any blanks after the operator; the result lists the constraints of the parts in order (Any for white space alone). Every other string raises InvalidConstraint, or the ValueError of the bad version. (Violated: a lone version or a lone operator raises AssertionError, and a star or an operator after an operator is handed to the version factory; text with a brace that cannot be scanned raises an exception of str.format, because it becomes part of the message's template.)", "quantifier": "every string, every version factory", "why_tests_cant": "All strings, all layouts.", "anchors": ["simplesat/constraints/parser.py::_RawConstraintsParser.parse", "simplesat/constraints/parser.py::_tokenize", "simplesat/constraints/parser.py::_CONSTRAINTS_SCANNER"]}
{"id": "C72", "title": "Requirement strings mean what is written", "statement": "A requirement string made of parts between commas, each of them white space, a name, a name and '*', or a name, an operator and a version, gives the requirement with that name and the constraints of the parts in order if all parts have the same name, and raises InvalidDependencyString if they have different ones; no other string is accepted. (Violated: an operator, a star or a version with a build is accepted as a name, and ',' raises AssertionError; text with a brace that cannot be scanned raises an exception of str.format.)", "quantifier": "every string, every version factory", "why_tests_cant": "All strings, all layouts.", "anchors": ["simplesat/constraints/parser.py::_RawRequirementParser.parse", "simplesat/constraints/requirement.py::Requirement._from_string", "simplesat/constraints/parser.py::_REQUIREMENTS_SCANNER"]}
{"id": "C73", "title": "The log of a search is faithful", "statement": "At every moment of a search, the policy logger's suggestions are the decisions made so far, in order; its assignment changes are, for each decision, exactly the variables whose value differs from the previous decision (from nothing, for the first), with both values, so that replaying them gives the assignments at any decision; its requirements are those submitted; and the histogram counts how often each variable was decided.", "quantifier": "every set of rules, every moment of every search, every wrapped policy that does not modify the assignments, in particular the library's own", "why_tests_cant": "All searches, with any interleaving of decisions, conflicts and backjumps.", "anchors": ["simplesat/sat/policy/policy_logger.py::PolicyLogger.get_next_package_id", "simplesat/sat/policy/policy_logger.py::PolicyLogger._log_histogram", "simplesat/sat/assignment_set.py::AssignmentSet.consume_changelog"]}
{"id": "C74", "title": "Logging does not change the search", "statement": "Solving with the package policy wrapped in its logger and with the bare policy puts the same questions to the policy, gets the same answers, and ends with the same error (with the same unsatisfiable core) or with assignments that differ in their changelogs only.", "quantifier": "every set of rules, every version table and set iteration order, every number of steps, whatever was logged before", "why_tests_cant": "Two runs are compared for all inputs; the logger consumes the changelog and the new keys that the policy reads.", "anchors": ["simplesat/sat/policy/policy_logger.py::PolicyLogger", "simplesat/sat/policy/undetermined_clause_policy.py::UndeterminedClausePolicy.get_next_package_id", "simplesat/sat/policy/__init__.py::InstalledFirstPolicy"]}
{"id": "C75", "title": "new_keys are the variables discovered since the changelog was consumed", "statement": "new_keys holds exactly the variables that were set (possibly to None) while unknown since the changelog was last consumed or the set created.", "quantifier": "every sequence of operations on an AssignmentSet with non-zero keys", "why_tests_cant": "All operation histories.", "anchors": ["simplesat/sat/assignment_set.py::AssignmentSet.__setitem__", "simplesat/sat/assignment_set.py::AssignmentSet.consume_changelog"]}
{"id": "C76", "title": "The result does not depend on set iteration order", "statement": "Two calls of solve with the same repositories and request return the same transaction, with the operations in the same order, or fail with the same SatisfiabilityError, whatever the order in which Python iterates over the sets involved (hash seed). Violated: packages of equal version are chosen, and installed packages of equal version preferred, in set order; it holds where no such tie is decided.", "quantifier": "every solver, request, and pair of iteration orders of every set that solve iterates over", "why_tests_cant": "A test runs with one hash seed and one set implementation; the claim compares all iteration orders.", "anchors": ["simplesat/dependency_solver.py::DependencySolver.solve", "simplesat/dependency_solver.py::_connected_packages", "simplesat/transaction.py::Transaction._safe_operations", "simplesat/sat/policy/undetermined_clause_policy.py::UndeterminedClausePolicy.__init__", "simplesat/utils/graph.py::toposort"]}
{"id": "C77", "title": "More available packages never make a request unsatisfiable", "statement": "If solve returns a transaction for a request made of install, remove and soft update jobs, then with more packages available (and whatever is installed) it does not raise SatisfiabilityError for the same request.", "quantifier": "every pair of solvers of which the second has more packages, every request without hard update and upgrade, every iteration order", "why_tests_cant": "Relates two runs for all repositories.", "anchors": ["simplesat/dependency_solver.py::DependencySolver.solve", "simplesat/rules_generator.py::RulesGenerator"]}
{"id": "C78", "title": "Leaving out, repeating or reordering jobs never makes a request unsatisfiable", "statement": "If solve returns a transaction for a request, it does not raise SatisfiabilityError for a request with the same modifiers whose jobs are among those of the first.", "quantifier": "every solver, every pair of requests of which the second has no other jobs than the first", "why_tests_cant": "All subsets and orders of all requests.", "anchors": ["simplesat/dependency_solver.py::DependencySolver.solve", "simplesat/request.py::Request"]}
{"id": "C79", "title": "Repeating a request after carrying it out changes nothing", "statement": "Once the operations of the transaction have been carried out, solving the same request again is not unsatisfiable and gives an empty transaction. Violated for upgrade; proved for install, remove and hard update jobs under the conditions of C41 and C43.", "quantifier": "every solver and request, every solver for the state after the transaction, every iteration order in the second run", "why_tests_cant": "Relates two consecutive runs for all repositories and requests.", "anchors": ["simplesat/dependency_solver.py::DependencySolver.solve", "simplesat/dependency_solver.py::_convert_upgrade_request_if_needed", "simplesat/transaction.py::Transaction"]}
{"id": "C80", "title": "The request of a scenario file is what its entries and marks say", "statement": "Loading a scenario gives a request whose jobs are the operations of its entries, in their order, followed by one job for each marked package that is not the object of an entry: an install, or a hard update if some entry says update_all; its modifiers are those of the file. Entries with known operations, modifiers and readable requirements are accepted. Violated for packages marked twice or marked with a version; proved for distinct marks that are names.", "quantifier": "every loaded scenario document (lists of packages, marks, modifiers, entries of any length and text), every character table and version syntax", "why_tests_cant": "All documents: combinations of operations, update_all entries, marks and modifiers.", "anchors": ["simplesat/test_utils.py::Scenario.from_yaml", "simplesat/request.py::Request"]}
{"id": "C81", "title": "A scenario offers exactly the packages it lists", "statement": "The remote repository of a scenario holds, for each name under \"remote\" (or for each listed package if there is no such key), the package with that name and version, marked as remote; the installed repository likewise for the names under \"installed\". Violated when two package texts have the same name and version: the first one is lost without a message.", "quantifier": "every loaded scenario document", "why_tests_cant": "All lists of package texts and names, in any order and with repetitions.", "anchors": ["simplesat/test_utils.py::parse_package_list", "simplesat/test_utils.py::repository_factory", "simplesat/test_utils.py::remote_repository", "simplesat/test_utils.py::installed_repository"]}
{"id": "C82", "title": "The expected operations of a scenario are those of its lists", "statement": "The operations and the pretty operations of a scenario correspond one to one, and in their order, to the entries of the lists \"transaction\" and \"pretty_transaction\": an install or removal of the package of the text, an update from one package to the other.", "quantifier": "every loaded scenario document", "why_tests_cant": "All lists of entries.", "anchors": ["simplesat/test_utils.py::Scenario._operations_from_transaction_list"]}
{"id": "C83", "title": "Solving a scenario file does what the file asks", "statement": "When a scenario has been loaded and solved with the default solver, every operation of the file is satisfied after the transaction, every marked package that the file does not ask about is kept, a scenario reported as unsatisfiable has no valid installation, and the result is a valid installation (this last one under the conditions of C41, without which it is violated).", "quantifier": "every loaded scenario document, every iteration order", "why_tests_cant": "End to end from text to transaction, for all texts.", "anchors": ["simplesat/test_utils.py::Scenario", "simplesat/dependency_solver.py::DependencySolver.solve", "simplesat/constraints/package_parser.py::PrettyPackageStringParser"]}
{"id": "C84", "title": "Installed packages are given up only if necessary", "statement": "If an installed package that no soft update asks for is gone after the transaction, then no valid installation contains it together with those of these packages, of the same or a lower version, that were kept. In particular, if some valid installation contains all of them, all are kept, and no valid installation keeps strictly more of them.", "quantifier": "every repository content, request, set of installed packages, iteration order, and every other valid installation", "why_tests_cant": "It compares the result with all valid installations of all inputs.", "anchors": ["simplesat/dependency_solver.py::DependencySolver.solve", "simplesat/sat/policy/undetermined_clause_policy.py::UndeterminedClausePolicy"]}
{"id": "C85", "title": "The newest possible packages are chosen for a job", "statement": "If a package that meets the requirement of an install or soft update job is not installed after the transaction, in this name and version, then no valid installation contains it together with what was kept of the installed packages and with the packages of the same or a higher version that jobs ask for and that are installed afterwards.", "quantifier": "every repository content, request, set of installed packages, iteration order, and every other valid installation; packages of the same name and version differ at most in their repository", "why_tests_cant": "It compares the result with all valid installations of all inputs.", "anchors": ["simplesat/dependency_solver.py::DependencySolver.solve", "simplesat/sat/policy/undetermined_clause_policy.py::UndeterminedClausePolicy._best_sorted_candidate"]}
{"id": "C86", "title": "A repository that is refused leaves the pool as it was", "statement": "If Pool.add_repository raises (a package declares to provide something with a version), then the pool answers every query as before. (Violated: the packages before the offending one stay in the pool, and can be installed by later calls. What holds: exactly the packages up to the offending one are entered, and queries for names that the repository does not provide are answered as before.)", "quantifier": "every pool, every repository, every query afterwards", "why_tests_cant": "All points at which the addition can stop.", "anchors": ["simplesat/pool.py::Pool.add_repository", "simplesat/pool.py::Pool.what_provides"]}
{"id": "C87", "title": "The printed form of a transaction says what it does", "statement": "Two lists of operations have the same text (Transaction.to_string, str(transaction)) exactly if they do the same: the same operations in the same order, on packages of the same name, version and repository, with old and new package of an update told apart. The same holds for to_simple_string, without the repository. Assumed of the texts: names contain no line feeds, quotes or blanks, and versions have the form upstream-build without these, further dashes or closing parentheses; without it texts can be ambiguous (witness).", "quantifier": "every two lists of operations on packages with such names", "why_tests_cant": "It compares all pairs of transactions.", "anchors": ["simplesat/transaction.py::Transaction.to_string", "simplesat/transaction.py::Transaction.to_simple_string", "simplesat/package.py::RepositoryPackageMetadata.__repr__"]}
{"id": "C88", "title": "The lines of an explanation are true and cannot be misread", "statement": "The text of an explanation printed with the pool (UNSAT.to_string(pool); the message of SatisfiabilityError itself is printed without the pool and shows only numbers) consists of one block per path; its lines stand for the rules along the path in order, and each line states a fact that is true of the available packages and the request (a job asks for one of exactly these packages; a package requires one of exactly these; two packages have the same name, or one declares a conflict with the other; a dependency is met by nothing), preceded by the requirements that lead from a job to it. Two lines with the same text state the same fact with the same reasons (for ordinary names and versions).", "quantifier": "every repository content, request, set of installed packages, iteration order; every two lines", "why_tests_cant": "All unsatisfiable inputs and all pairs of lines.", "anchors": ["simplesat/rules_generator.py::PackageRule.to_string", "simplesat/sat/minisat.py::UNSAT.to_string"]}
{"id": "C89", "title": "Asking a pool does not change what it answers", "statement": "The answer of a pool to a call depends only on the repositories added and the modifiers set before, not on the questions asked (what_provides, name_to_packages, package_id, id_to_package, package_ids). (Violated: name_to_packages enters an unknown name, after which what_provides for a requirement that is not an InstallRequirement can raise NotImplementedError instead of returning nothing. What holds: this is the only exception, and the solver does not cause it.)", "quantifier": "every sequence of calls, every further call", "why_tests_cant": "All histories.", "anchors": ["simplesat/pool.py::Pool.name_to_packages", "simplesat/pool.py::Pool.what_provides", "simplesat/utils/_collections.py::DefaultOrderedDict.__missing__"]}
{"id": "C90", "title": "A pool that was pickled and unpickled answers as the original", "statement": "pickle.loads(pickle.dumps(pool)) gives the same answers as pool to every sequence of calls. (Violated: DefaultOrderedDict.__reduce__ stores the result of the default factory in place of the factory; the copy raises TypeError when it is asked for the packages of an unknown name, and refuses repositories with new names. What holds: the answers are the same for all calls that concern known names only.)", "quantifier": "every pool, every sequence of calls afterwards", "why_tests_cant": "All histories.", "anchors": ["simplesat/utils/_collections.py::DefaultOrderedDict.__reduce__", "simplesat/pool.py::Pool.add_repository"]}
{"id": "C91", "title": "An exception names what is missing", "statement": "If solve raises NoPackageFound, its attribute requirement is the requirement of the first job that no package meets; MissingInstallRequires and MissingConflicts are raised in strict mode only, and their requirement is a dependency or conflict, met by no package under the modifiers of the request, of the package that the message names, which some job asks for. Conversely, if some job is met by no package, solve raises NoPackageFound for the first such job.", "quantifier": "every pool, installed repository, request, mode and iteration order of sets", "why_tests_cant": "All inputs.", "anchors": ["simplesat/errors.py::NoPackageFound", "simplesat/rules_generator.py::RulesGenerator._add_install_requires_rules", "simplesat/rules_generator.py::RulesGenerator._add_conflicts_rules", "simplesat/dependency_solver.py::DependencySolver._create_rules_and_initialize_policy"]}
{"id": "C92", "title": "Strict mode refuses incomplete packages", "statement": "In strict mode solve raises for a request that asks for a package, or finds one installed, with a dependency or conflict that no package meets. (Violated: a package that was reached as a dependency of another one is not checked, so that the order of the jobs decides. What holds: the property for packages that are not dependencies of packages the request leads to.)", "quantifier": "every pool, installed repository, request and iteration order of sets", "why_tests_cant": "All inputs.", "anchors": ["simplesat/rules_generator.py::RulesGenerator._add_install_requires_rules", "simplesat/rules_generator.py::RulesGenerator._add_conflicts_rules", "simplesat/rules_generator.py::RulesGenerator._add_package_rules"]}
{"id": "C93", "title": "The DIMACS export states the request, and its answers are right", "statement": "The file that to_dimacs writes for the SAT solver of a request, read as DIMACS, is a well-formed problem that has a solution exactly if the request has a valid installation, with a comment that names the package of every variable; and from_dimacs_solution turns every answer of an external solver into a transaction that leads to a valid installation. (Violated: the header announces the number of variables that occur instead of the greatest one, so the file is malformed unless the ids have no gaps; and the script itself always raises TypeError, because it passes DependencySolver an argument that it does not have. What holds: the rest of the property, and for answers the conditions of C41.)", "quantifier": "every pool, installed repository, request, iteration order of sets, text of names and versions, and answer of the external solver", "why_tests_cant": "All inputs and all answers; the round trip through a text format.", "anchors": ["scripts/scenario_to_dimacs.py::initialize", "scripts/scenario_to_dimacs.py::clauses_to_dimacs", "scripts/scenario_to_dimacs.py::to_dimacs", "scripts/scenario_to_dimacs.py::from_dimacs_solution", "simplesat/dependency_solver.py::DependencySolver.solve"]}
{"id": "C94", "title": "Jobs that accept the same packages have the same outcome", "statement": "Two requests with the same modifiers whose jobs correspond one by one - the same kind, and requirements that accept the same of the available packages, however they are written - have the same outcome: solve and solve_with_hint return the same transaction or raise the same exception, with corresponding jobs in the hint. Where the requirements have different names, this holds provided no available package lists one of these names twice. In particular the class, the order and the repetition of constraints do not matter.", "quantifier": "every pool, installed repository, pair of requests and iteration order of sets", "why_tests_cant": "All pools and all pairs of requests.", "anchors": ["simplesat/dependency_solver.py::DependencySolver.solve", "simplesat/dependency_solver.py::DependencySolver.solve_with_hint", "simplesat/rules_generator.py::RulesGenerator._add_job_rules", "simplesat/pool.py::Pool.what_provides"]}
{"id": "C95", "title": "is_satisfiable decides satisfiability", "statement": "simplesat.sat.is_satisfiable(rules) returns True exactly if some assignment satisfies all rules. (Violated: it passes the rules to the solver as its policy, so that it returns True for all rules. What holds: satisfiable rules are said to be satisfiable.)", "quantifier": "every list of rules", "why_tests_cant": "All rule sets, also unsatisfiable ones.", "anchors": ["simplesat/sat/__init__.py::is_satisfiable"]}
{"id": "C96", "title": "A SAT solver can be searched again, also after clauses were added", "statement": "Each search of a MiniSATSolver returns a solution of all the clauses added so far (the next one, as its documentation says), or raises SatisfiabilityError if there is none, and add_clause accepts every clause. (Violated: after a successful search every later search returns the same solution, whatever was added; a unit clause that contradicts it raises SatisfiabilityError even if all clauses together are satisfiable; after SatisfiabilityError the next search may return an assignment that violates the clauses; clauses added to a solver not made by from_rules are ignored unless its assignments were set up. What holds: exactly what happens after a successful search, for every sequence of calls; so the answer is right exactly if the first solution satisfies the clauses added.)", "quantifier": "every set of rules, policy and sequence of calls of add_clause, _setup_assignments and search", "why_tests_cant": "All histories of one object.", "anchors": ["simplesat/sat/minisat.py::MiniSATSolver.add_clause", "simplesat/sat/minisat.py::MiniSATSolver.search", "simplesat/sat/minisat.py::MiniSATSolver._setup_assignments"]}
{"id": "C97", "title": "Equal objects are interchangeable", "statement": "For constraints, multi constraints, requirements, repository infos, packages and rules, == is an equivalence relation, != its opposite, equal objects have equal hashes and behave the same, and a comparison never raises. (Violated: comparing a requirement with a package of the same name, or a repository info with a requirement, raises AttributeError, the latter depending on the order; equal packages may provide different names; equal requirements may be of different classes and react differently to modifiers. What holds: objects of one kind can be compared; exactly which are equal; equal constraints and requirements match the same versions and print alike.)", "quantifier": "every pair and triple of such objects, every hash function of strings, versions and tuples", "why_tests_cant": "All pairs of objects and all hash functions.", "anchors": ["simplesat/constraints/kinds.py::Any.__eq__", "simplesat/constraints/multi.py::MultiConstraints", "simplesat/constraints/requirement.py::Requirement.__eq__", "simplesat/package.py::PackageMetadata", "simplesat/package.py::RepositoryInfo", "simplesat/package.py::RepositoryPackageMetadata", "simplesat/rules_generator.py::PackageRule.__eq__"]}
{"id": "C98", "title": "An AssignmentSet reads like a dictionary", "statement": "keys(), iteration, values(), items(), to_dict(), assigned_ids, unassigned_ids, len, in, [] and get of an AssignmentSet agree with one another: they list the variables set so far, in increasing order, with the values last given; the constructor takes a dictionary and to_dict() gives it back. (Violated: get(k, default) returns the default for a variable that is in the set with value None.)", "quantifier": "every sequence of assignments, deletions and changelog calls, every key and default", "why_tests_cant": "All histories of one object.", "anchors": ["simplesat/sat/assignment_set.py::AssignmentSet"]}
{"id": "C99", "title": "The text of a hint names the conflicting jobs", "statement": "The hint_pretty_string of SatisfiabilityErrorWithHint is a heading and one line per job of a minimal set of conflicting jobs of the request, telling what was asked (Install, Remove, Update, Upgrade) and for which requirement; two lists of jobs have the same text only if they ask for the same.", "quantifier": "every request, pool, installed set, set order; every way requirements are printed on one line", "why_tests_cant": "All requests and all requirement texts.", "anchors": ["simplesat/errors.py::SatisfiabilityErrorWithHint", "simplesat/request.py::_Job", "simplesat/dependency_solver.py::DependencySolver.solve_with_hint"]}
{"id": "C100", "title": "The logger's report tells the story of the search", "statement": "The report of the policy logger lists the values before the first decision, then every decision with its marks (required, installed) and the packages whose value changed up to the next decision, and says BACKTRACKED exactly where the solver took decisions back. (Violated: the last decision is never reported; installed packages are never marked; a conflict after which all packages still have a value is not reported. What holds: the decisions but for the last, the changes of packages of other names in order of name and version; BACKTRACKED is said exactly if a package lost its value, and then there has been a conflict.)", "quantifier": "every set of rules, policy, names and versions, at every moment of the search", "why_tests_cant": "All searches, at every moment.", "anchors": ["simplesat/sat/policy/policy_logger.py::PolicyLogger._log_report"]}
{"id": "C101", "title": "What packages can be called can be asked for", "statement": "For every name that package strings and full names accept, the requirement string consisting of the name gives the requirement for that name. (Violated: requirement strings are scanned with the character classes of ASCII, package strings with those of Unicode: a name with a letter or digit outside ASCII is refused with InvalidConstraint.)", "quantifier": "every name that is accepted in package strings, every table of Unicode letters", "why_tests_cant": "All names.", "anchors": ["simplesat/constraints/parser.py::_REQUIREMENTS_SCANNER", "simplesat/constraints/requirement.py::Requirement._from_string", "simplesat/constraints/requirement.py::_FULL_PACKAGE_RC", "simplesat/constraints/package_parser.py::PACKAGE_RC"]}
{"id": "C102", "title": "How packages are called does not matter to the solver", "statement": "Whatever the names of packages are, solve, solve_with_hint, requirements_from_packages, packages_are_consistent, requirements_are_satisfiable, requirements_are_complete, satisfy_requirements, simplify_requirements and compute_leaf_packages treat them as names: nothing depends on how they are spelled. (Violated: the solver writes names and versions into strings and parses these. What holds: for names of ASCII words separated by dots, and versions whose text is read back, parsing changes nothing. If an installed package has a name that is refused, such as one with a dash or a letter outside ASCII, solve raises an exception for every request; so it does if such a package is a candidate of an install job. Two versions of a package whose name has a blank before it can be installed together.)", "quantifier": "every pool, installed packages, request and modifiers, every order of iteration over sets", "why_tests_cant": "All names.", "anchors": ["simplesat/rules_generator.py::RulesGenerator._add_conflicts_rules", "simplesat/transaction.py::Transaction._find_other_providers", "simplesat/dependency_solver.py::_convert_upgrade_request_if_needed", "simplesat/dependency_solver.py::requirements_from_packages", "simplesat/compute_dependencies.py::compute_leaf_packages"]}
{"id": "C103", "title": "Asking for less never makes a request unsatisfiable", "statement": "If solve returns a transaction for a request, then it does not raise SatisfiabilityError for a request with the same modifiers in which every job asks for no more than some job of the first: an install or soft update whose requirement more packages meet (for instance a wider range of versions), a removal whose requirement fewer packages meet, or an install where the first request has a hard update.", "quantifier": "every pool, installed packages and two requests related in this way, every order of iteration over sets in both runs", "why_tests_cant": "Relates two unbounded searches on arbitrary repositories.", "anchors": ["simplesat/dependency_solver.py::DependencySolver.solve", "simplesat/request.py::Request", "simplesat/rules_generator.py::RulesGenerator._add_job"]}
{"id": "C104", "title": "Constraint modifiers never make a request unsatisfiable", "statement": "If solve returns a transaction for a request, then it does not raise SatisfiabilityError for the same jobs when more packages are allowed to be newer, older or any version. (Violated: with allow_newer a dependency `^= 1-3` becomes `>= 1-3`, which the version 1-1 no longer meets, so allowing newer versions makes a solvable request unsatisfiable. It holds if for each `^=` constraint on a targeted package its providers have build numbers not below that of the constraint and at most 999999999.)", "quantifier": "every pool, installed packages, jobs and two sets of modifiers, one of which contains the other", "why_tests_cant": "Relates two unbounded searches on arbitrary repositories.", "anchors": ["simplesat/constraints/constraint_modifiers.py::modify_requirement", "simplesat/dependency_solver.py::DependencySolver.solve", "simplesat/request.py::Request.allow_newer"]}
{"id": "C105", "title": "Packages that nobody asks for do not change whether a request can be satisfied", "statement": "Add packages to the repositories, installed or not, that provide no name another package depends on and that no job (but a removal) asks for; they may depend on or conflict with anything. If solve returns a transaction without them, it does not raise SatisfiabilityError with them, and the other way round. (An upgrade counts as the jobs it stands for, which are to be the same with and without the packages.)", "quantifier": "every pool, every set of such packages anywhere in the repositories, every request, every order of iteration over sets in both runs", "why_tests_cant": "Relates two unbounded searches on arbitrary repositories; the identifiers of all packages change.", "anchors": ["simplesat/dependency_solver.py::DependencySolver.solve", "simplesat/rules_generator.py::RulesGenerator.iter_rules", "simplesat/pool.py::Pool.add_repository"]}
{"id": "C106", "title": "Strict mode never changes an answer", "statement": "solve in strict mode either does exactly what it does in the default mode (the same transaction or the same SatisfiabilityError) or raises MissingInstallRequires, MissingConflicts or (see C56) TypeError.", "quantifier": "every pool, installed packages, request and modifiers", "why_tests_cant": "All inputs.", "anchors": ["simplesat/dependency_solver.py::DependencySolver.solve", "simplesat/rules_generator.py::RulesGenerator"]}
{"id": "C107", "title": "Packages listed one per line are read as listed", "statement": "packages_from_definition splits a text into its non-blank lines at any line break and any indentation, returns the packages of those lines in order, and raises ValueError iff some line is not a package string; packages printed one per line in any layout are read back; pool_and_repository_from_packages returns a repository of exactly these packages sorted by name and version, and a pool that finds exactly those of them that meet a requirement.", "quantifier": "every text, in every layout; every list of printable packages; every requirement", "why_tests_cant": "All texts and layouts.", "anchors": ["simplesat/test_utils.py::packages_from_definition", "simplesat/test_utils.py::pool_and_repository_from_packages", "simplesat/constraints/package_parser.py::PrettyPackageStringParser"]}
{"id": "C108", "title": "The Composer export has one faithful entry per package", "statement": "repository_to_composer_json_dict yields, in the order of the repository, one entry per package with its name, its version, its normalized version (upstream version as text or as in the table, padded with .0 to four parts, then -patch and the build number) and, under each required name, all constraints on that name in order; it succeeds iff every requirement can be read and consists of *, == and ^= constraints, and otherwise yields the entries before the first package that has none and raises NotImplementedError or the parse error.", "quantifier": "every repository", "why_tests_cant": "All repositories, versions and requirements.", "anchors": ["simplesat/utils/_composer_utils.py::repository_to_composer_json_dict", "simplesat/utils/_composer_utils.py::_requirements_to_php_dict", "simplesat/utils/_composer_utils.py::_normalize_php_version"]}
{"id": "C109", "title": "The Composer export tells packages and constraints apart", "statement": "Two packages with the same entry have the same name, version, requirements and conflicts; two versions or constraints with the same text are the same; the text of `== v` is the text of the version v. (Violated: the table of pre-releases, zeros at the end, conflicts, build number 0.)", "quantifier": "every pair of packages, versions and constraints", "why_tests_cant": "All pairs.", "anchors": ["simplesat/utils/_composer_utils.py::_normalize_php_version", "simplesat/utils/_composer_utils.py::_normalize_php_version_constraint", "simplesat/utils/_composer_utils.py::_requirement_to_php_string", "simplesat/utils/_composer_utils.py::_TO_NORMALIZE"]}
{"id": "C110", "title": "The parts of an exported request are its jobs", "statement": "request_to_php_parts returns for each job, in order, the method, name and constraints; it raises, for the first job that cannot be expressed, AttributeError (upgrade), ValueError (a constraint other than *, >=, >, <=, <) or KeyError (an update job), and only then.", "quantifier": "every request", "why_tests_cant": "All requests.", "anchors": ["simplesat/utils/_composer_utils.py::request_to_php_parts", "simplesat/utils/_composer_utils.py::_requirement_to_php_constraints"]}
{"id": "C111", "title": "An exported scenario is complete on disk", "statement": "scenario_to_php_template_variables succeeds iff there is a remote repository and everything can be exported; then the two files hold the entries of the remote repositories and of the installed packages and no other file changes; when it fails the files are as before. (Violated: only the first remote repository is exported; a failed export leaves an empty file.)", "quantifier": "every scenario, paths and previous files; every point of failure", "why_tests_cant": "All scenarios and failure points.", "anchors": ["simplesat/utils/_composer_utils.py::scenario_to_php_template_variables", "scripts/scenario_to_php.py::main"]}
{"id": "C112", "title": "Rules that are solved by minisat", "statement": "rules_set_to_dimacs writes all rules, literal by literal, in the DIMACS format with a right announcement. If the program minisat is correct, is_satisfable returns whether the rules can be satisfied, and solve_sat returns literals without contradiction such that each rule holds, and raises AssertionError iff there are none. For the rules generated for a request the packages that are true in the answer (among those for which rules were generated) are a valid installation, and AssertionError means that there is no valid installation.", "quantifier": "every pool, list of rules, request, and every correct SAT program (whatever answer it chooses)", "why_tests_cant": "Ranges over all rules, and over all answers that another program may choose.", "anchors": ["tools/minisat_helpers.py::rules_set_to_dimacs", "tools/minisat_helpers.py::solve_sat", "tools/minisat_helpers.py::solution_to_package_strings", "tools/minisat_helpers.py::is_satisfable"]}
{"id": "C113", "title": "Only packages that can be reached matter", "statement": "Names can be reached if a job or an installed package has them, or if a package that provides a name that can be reached has them, depends on them or conflicts with them. If two solvers have the same installed packages and settings, and their repositories agree (in order) on the packages that provide names that can be reached, then solve and solve_with_hint have the same outcomes with both: the same transactions, the same unsatisfiable cores and hints, the same exceptions. In particular a package that cannot be reached may conflict with everything, and may be added, removed or updated, without effect.", "quantifier": "every two lists of repositories, every request (with modifiers, updates and upgrades), both settings of strict and pruning, every choice of the iteration orders of sets in one run", "why_tests_cant": "Ranges over all pairs of repositories and all requests; the packages get other ids, so the two runs differ in every internal number.", "anchors": ["simplesat/dependency_solver.py::DependencySolver.solve", "simplesat/dependency_solver.py::DependencySolver.solve_with_hint", "simplesat/rules_generator.py::RulesGenerator.iter_rules", "simplesat/pool.py::Pool.what_provides", "simplesat/sat/minisat.py::MiniSATSolver.search"]}
{"id": "C114", "title": "The numbers of the variables do not matter to the SAT solver", "statement": "If the variables of the rules are renumbered by an increasing function, then MiniSATSolver.from_rules(rules).search() returns the renumbered assignment, with the variables listed in the same order, or raises the same exception. The same holds with the policy of the dependency solver if versions, preferred and required packages are renumbered along.", "quantifier": "every list of rules and every increasing renumbering", "why_tests_cant": "All rules and all renumberings.", "anchors": ["simplesat/sat/minisat.py::MiniSATSolver.from_rules", "simplesat/sat/minisat.py::MiniSATSolver.search", "simplesat/sat/policy/undetermined_clause_policy.py::UndeterminedClausePolicy", "simplesat/sat/policy/policy.py::DefaultPolicy"]}
{"id": "C115", "title": "A hint costs at most two solves per job", "statement": "minimal_unsatisfiable_subset on n >= 1 clauses calls the callback at most 2n-1 times whatever it answers, and at most 1 + 2 k ceil(log2 n) times if the result has k clauses, each time with some of the given clauses and none of them more often than given. solve_with_hint for a request with n jobs calls solve at most 2n times (once if there are no jobs), first for the request and then for some of its jobs with the same modifiers.", "quantifier": "every list of clauses, every callback (also one that is inconsistent or raises), every solver and request", "why_tests_cant": "A bound on the number of calls for all inputs and all answers of the callback.", "anchors": ["simplesat/dependency_solver.py::minimal_unsatisfiable_subset", "simplesat/dependency_solver.py::DependencySolver.solve_with_hint"]}
{"id": "C116", "title": "Calls on requests and modifiers change only the object that they are aimed at", "statement": "Whatever ConstraintModifiers, Requests and sets share by reference: a ConstraintModifiers object holds at any time what it held earlier, changed by the calls aimed at it since (allow_newer/any/older of a request that refers to it, update with what the other held then, also update with itself, remove with the names the argument had then, also when that is one of its own sets, add on one of its sets), and no other call changes it. ConstraintModifiers(a, b, c) copies the sets it is given (a string is one name). Request() has modifiers that nothing else refers to. solve and solve_with_hint use what the request and its modifiers hold when they are called and change neither; remove with a string raises TypeError and changes nothing.", "quantifier": "every sequence of calls on any number of sets, modifiers and requests and a solver, with any sharing that the API allows", "why_tests_cant": "All histories and all ways of sharing objects.", "anchors": ["simplesat/constraints/constraint_modifiers.py::ConstraintModifiers", "simplesat/constraints/constraint_modifiers.py::as_set", "simplesat/request.py::Request", "simplesat/dependency_solver.py::DependencySolver.solve"]}
{"id": "C117", "title": "A pool answers the same until it is changed", "statement": "Between two calls that change the pool (setting pool.modifiers, or solving a request with it), pool.what_provides(requirement) gives the same answer. (Violated: after solve(request) with modifiers the pool refers to the request's modifiers, so request.allow_newer(name) changes its answers; after a request without modifiers it does not.) Exactly: the pool answers with what the modifiers of the last solved request hold at the time of the question if they held a name when it was solved, else without modifiers.", "quantifier": "every sequence of calls on sets, modifiers, requests and the solver, every requirement", "why_tests_cant": "All histories and all ways of sharing objects.", "anchors": ["simplesat/dependency_solver.py::DependencySolver.solve", "simplesat/pool.py::Pool.what_provides", "simplesat/request.py::Request.allow_newer"]}
{"id": "C118", "title": "The message for cyclic dependencies names what leads to a cycle", "statement": "When toposort raises ValueError, it has yielded exactly the nodes that do not lead to a cycle (of two or more nodes), and the message lists exactly the nodes that do, each once, each with exactly those of its dependencies that lead to a cycle. For a transaction these are the decided packages, shown as name-version or, if they are to be out, as -(name-version). The listed items and their dependencies can be told from the text if the texts of the items contain no quote, line feed or [.", "quantifier": "every graph, every transaction over a pool built from repositories, every iteration order of sets", "why_tests_cant": "All graphs and all texts.", "anchors": ["simplesat/utils/graph.py::toposort", "simplesat/transaction.py::Transaction._key_to_pretty_string", "simplesat/transaction.py::Transaction._safe_operations"]}
{"id": "C119", "title": "A solver works with the packages that its pool knows", "statement": "What the remote repositories hold when solve(request) or solve_with_hint(request) is called does not matter for a request that is not an upgrade: adding packages or repositories to them, or removing them, after the pool was made changes no answer. For an upgrade only the highest versions matter under which the names of the installed packages occur in the remote repositories. If one of these is a version under which the pool knows no package of that name, the upgrade is refused with NoPackageFound. If the installed repository holds a package that the pool does not know, nothing is solved or called unsatisfiable: ValueError is raised (unless looking up the jobs fails first).", "quantifier": "every solver and pool, every content of the repositories at the time of the call, every request, every set iteration order", "why_tests_cant": "All contents of repositories, all histories.", "anchors": ["simplesat/dependency_solver.py::DependencySolver.solve", "simplesat/dependency_solver.py::DependencySolver._create_rules_and_initialize_policy", "simplesat/dependency_solver.py::_convert_upgrade_request_if_needed", "simplesat/pool.py::Pool.package_id"]}
{"id": "C120", "title": "The search learns only what it does not have yet", "statement": "During a search and after it, whether it returned or raised SatisfiabilityError, solver.clauses are the non-empty rules in their order with their literals, followed by clauses marked as learned. No learned clause contains all the literals of a clause before it, so the search learns neither a rule nor something it has learned before, and no learned clause has two opposite literals. A turn of the search adds at most one clause; it does so only after a conflict above level 0 in which every literal of the new clause was false, and afterwards one of them, the last literal assigned, is true and all the others are false. At most 3^n clauses are learned, n being the number of variables.", "quantifier": "every list of rules, every decision policy that answers with undecided variables, every turn of every search", "why_tests_cant": "All formulas and all sequences of decisions and conflicts.", "anchors": ["simplesat/sat/minisat.py::MiniSATSolver.search", "simplesat/sat/minisat.py::MiniSATSolver.analyze", "simplesat/sat/minisat.py::MiniSATSolver.record", "simplesat/sat/minisat.py::MiniSATSolver.add_clause", "simplesat/sat/minisat.py::MiniSATSolver.propagate"]}
{"id": "C121", "title": "Copies of a DefaultOrderedDict behave as the original", "statement": "Looking up a missing key of a DefaultOrderedDict(list) enters an empty list at the end and changes nothing else; looking up a key that is there changes nothing. A copy (copy, deepcopy, or pickled and unpickled) has equal items in the same order and answers every later sequence of calls as the original would have; a shallow copy holds the same lists, a deep or unpickled copy shares nothing with anything that was there before, so that nothing done to the one is ever seen in the other.", "quantifier": "every history of dictionaries, copies, lookups, appends, assignments (also of lists that are in another dictionary) and pops", "why_tests_cant": "Independence and equal behaviour are statements about all later histories and all ways in which lists are shared.", "anchors": ["simplesat/utils/_collections.py::DefaultOrderedDict.__getitem__", "simplesat/utils/_collections.py::DefaultOrderedDict.__missing__", "simplesat/utils/_collections.py::DefaultOrderedDict.__reduce__", "simplesat/utils/_collections.py::DefaultOrderedDict.copy", "simplesat/utils/_collections.py::DefaultOrderedDict.__deepcopy__"]}
{"id": "C122", "title": "A transaction that is interrupted leaves packages in order", "statement": "Wherever the execution of transaction.operations is stopped, the packages that are there were all there before or are all there in the end, and the packages that are kept are there; if what is installed before and in the end is in order, there is one package per name, no declared conflict, every dependency of a package that is there is met by a package that is there, and the same request can still be satisfied.", "quantifier": "every pool, request and transaction that solve returns, and every crash point between two operations", "why_tests_cant": "All graphs of dependencies between kept, removed and installed packages, and all prefixes of the operations.", "anchors": ["simplesat/transaction.py::Transaction._safe_operations", "simplesat/transaction.py::Transaction.operations", "simplesat/dependency_solver.py::DependencySolver.solve"]}
{"id": "C123", "title": "The SAT problem of a request is at most quadratic in the number of packages", "statement": "A request has at most n(n-1)/2 + d + j rules, where n is the number of packages in the pool, d the number of dependencies they declare and j the number of jobs that remove nothing, and at most n more if there are jobs that remove something. No rule has two opposite literals, so none holds anyway, and a rule has at most n different literals.", "quantifier": "every list of repositories, every request and every set of installed packages for which rules are generated", "why_tests_cant": "A bound on the size for all pools and requests; the generator visits packages again and again through different requirements.", "anchors": ["simplesat/rules_generator.py::RulesGenerator.iter_rules", "simplesat/rules_generator.py::RulesGenerator._add_rule", "simplesat/rules_generator.py::RulesGenerator._create_dependency_rule", "simplesat/rules_generator.py::RulesGenerator._create_conflicts_rule", "simplesat/rules_generator.py::RulesGenerator._create_install_one_of_rule", "simplesat/rules_generator.py::RulesGenerator._create_remove_rule"]}
{"id": "C124", "title": "Calls of solve that share a pool do not disturb each other", "statement": "When several calls of solve, of one or of several solvers with the same pool, run at the same time or follow one another in any order, each returns or raises what it would have if it were the only one.", "quantifier": "every number of calls, every request, every schedule with switches between the phases of solve, whatever modifiers were left in the pool", "why_tests_cant": "All schedules and all combinations of requests.", "anchors": ["simplesat/dependency_solver.py::DependencySolver.solve", "simplesat/dependency_solver.py::DependencySolver._create_rules_and_initialize_policy", "simplesat/pool.py::Pool.modifiers", "simplesat/pool.py::Pool.what_provides"]}
{"id": "C125", "title": "Graph searches run as far as needed and ask for each node once", "statement": "breadth_first_search ends exactly when every target can be hit or finitely many nodes can be reached; also in an endless graph every target that can be hit gets its shortest path after finitely many steps, and a consumer may stop at any time. A visited dictionary of the caller takes its nodes out of the graph, and afterwards holds a tree of shortest paths. neighbor_func is called at most once per node, and only while some target is not nearer than the node. connected_nodes calls it exactly once on each node that can be reached without entering the given set.", "quantifier": "every graph, endless ones included, every target set and target function, every dictionary or set given by the caller, every moment of the iteration, every order in which sets are popped", "why_tests_cant": "Endless graphs, all moments at which a consumer may stop, and all dictionaries that a caller may give.", "anchors": ["simplesat/utils/graph.py::breadth_first_search", "simplesat/utils/graph.py::backtrack", "simplesat/utils/graph.py::connected_nodes"]}
{"id": "C126", "title": "The module functions answer the same for lists and for iterators", "statement": "requirements_from_packages, packages_from_requirements, packages_are_consistent, requirements_are_complete, requirements_are_satisfiable, satisfy_requirements and simplify_requirements, whose arguments are documented as iterables, answer the same whether packages and requirements are given as containers or as iterators that can be read once.", "quantifier": "every set of packages, every list of requirements, all modifiers, each argument a container or an iterator", "why_tests_cant": "All packages and requirements, and every combination of kinds of iterables; an argument that is read twice looks right with every list.", "anchors": ["simplesat/dependency_solver.py::requirements_from_packages", "simplesat/dependency_solver.py::packages_from_requirements", "simplesat/dependency_solver.py::packages_are_consistent", "simplesat/dependency_solver.py::requirements_are_complete", "simplesat/dependency_solver.py::requirements_are_satisfiable", "simplesat/dependency_solver.py::satisfy_requirements", "simplesat/dependency_solver.py::simplify_requirements"]}
{"id": "C127", "title": "A repository can be iterated while packages are added to it", "statement": "An iteration over a repository to which packages are added meanwhile yields only packages of the repository, each that was there from the beginning exactly as often as it was there, and ends when it has yielded all that are there.", "quantifier": "every repository, every interleaving of add_package and next, update with the repository itself included", "why_tests_cant": "All interleavings of the additions with the iteration.", "anchors": ["simplesat/repository.py::Repository.__iter__", "simplesat/repository.py::Repository.add_package", "simplesat/repository.py::Repository.update"]}
{"id": "C128", "title": "A rules generator can be asked again", "statement": "iter_rules of a RulesGenerator returns the rules for the request and the pool as they are at the time of the call, however often it was called before.", "quantifier": "every pool, request, set of installed packages, strict or not, and every history of calls, the pool and the request being changed in between", "why_tests_cant": "All histories of calls and changes.", "anchors": ["simplesat/rules_generator.py::RulesGenerator.iter_rules", "simplesat/rules_generator.py::RulesGenerator._add_rule"]}
{"id": "C129", "title": "AssignmentSets do not share what they have", "statement": "Calls on an AssignmentSet change no other AssignmentSet, in particular neither its copies nor the one that it was copied from. A changelog or a set of ids that was handed out does not change afterwards.", "quantifier": "every number of AssignmentSets, every history of assignments, deletions, changelog calls and copies, every object that was handed out on the way", "why_tests_cant": "All histories; sharing shows only when the right two objects are used after one another.", "anchors": ["simplesat/sat/assignment_set.py::AssignmentSet.copy", "simplesat/sat/assignment_set.py::AssignmentSet.get_changelog", "simplesat/sat/assignment_set.py::AssignmentSet.consume_changelog", "simplesat/sat/assignment_set.py::AssignmentSet.assigned_ids"]}
{"id": "C130", "title": "Timing the phases of solve", "statement": "The timers of a solver say how long each phase of the last call of solve took, also if the call raised an exception. Timing changes no result and hides no exception. A timer that has not run says so when it is written.", "quantifier": "every solver, every request, every sequence of calls, every clock, every phase that raises or not", "why_tests_cant": "All requests and all sequences of calls; which timers are left over depends on where the call raised.", "anchors": ["simplesat/utils/timed_context.py::timed_context", "simplesat/dependency_solver.py::DependencySolver.solve"]}
{"id": "C131", "title": "The order of repositories and of packages in them does not matter to the answer", "statement": "Two solvers that were given the same packages, installed packages and remote packages, but in another order or spread over other repositories, agree on whether a request can be satisfied. If packages were only added to the repositories in another order, and no repository has two different packages of the same name and version, every call has exactly the same outcome.", "quantifier": "every collection of packages, every order of repositories and of additions, every distribution over repositories, every request (upgrades included) and modifiers, every set iteration order", "why_tests_cant": "All permutations of all collections of packages; identifiers, the order of the rules and of the literals change with the order.", "anchors": ["simplesat/pool.py::Pool.add_repository", "simplesat/repository.py::Repository.add_package", "simplesat/dependency_solver.py::DependencySolver.solve", "simplesat/dependency_solver.py::_convert_upgrade_request_if_needed"]}
{"id": "C132", "title": "Uploading release assets never loses an asset", "statement": "If upload_assets.py ends well, every file of the folder is an asset of the release, with the same hash. Whatever becomes of its requests and at whatever moment it stops: no other release and no asset that is not named like a file is touched, no asset is lost, an asset that has the hash of its file is not touched without --force, and running the program again (with --replace or --force, all requests answered) completes the upload. Running it when all is uploaded changes nothing.", "quantifier": "every folder of files, every release, every combination of --force and --replace, every fate of every request (carried out, lost, carried out with the answer lost, answered by something that is no JSON), every moment of a crash", "why_tests_cant": "All sequences of request failures and all crash points; a test with mocked answers shows one of them.", "anchors": [".github/actions/upload-assets/utils/upload_assets.py::main", ".github/actions/upload-assets/utils/upload_assets.py::delete_asset", ".github/actions/upload-assets/utils/upload_assets.py::upload_asset", ".github/actions/upload-assets/utils/upload_assets.py::check_hash", ".github/actions/upload-assets/utils/common.py::get_release"]}
{"id": "C133", "title": "Preparing a release is safe to repeat and loses nothing", "statement": "create_release.py always ends. When it ends well, a release with the tag exists. At whatever moment it stops, releases with other tags are untouched; no release or asset is lost unless it has been replaced by the new release; there is never a second release with a tag that exists already; and after a run that failed, running it again with --ignore ends well, and both runs together make at most one release.", "quantifier": "every list of releases, every combination of --force and --ignore, every fate of every request, every clock that advances by at least the time slept, every moment of a crash", "why_tests_cant": "All sequences of request failures, clocks and crash points.", "anchors": [".github/actions/prepare-release/utils/create_release.py::main", ".github/actions/prepare-release/utils/create_release.py::create_release", ".github/actions/prepare-release/utils/create_release.py::delete_release", ".github/actions/prepare-release/utils/common.py::get_release", ".github/actions/prepare-release/utils/common.py::verify_release", ".github/actions/prepare-release/utils/retry.py::sleeping_retry", ".github/actions/prepare-release/utils/retry.py::busy_retry"]}
{"id": "C134", "title": "Removing packages removes them and what cannot do without them, and nothing else", "statement": "A request that only removes packages is never unsatisfiable. Its transaction removes the installed packages that are asked for and those that cannot stay without them (every package that would meet one of their dependencies has to go too), removes no other package, and installs nothing.", "quantifier": "every collection of packages, every set of installed packages that is in order, every list of removal jobs, every modifiers and set iteration order", "why_tests_cant": "All dependency graphs; a removal is decided by the same search as everything else, with preferences and pruning.", "anchors": ["simplesat/dependency_solver.py::DependencySolver.solve", "simplesat/request.py::Request.remove", "simplesat/sat/policy/policy.py::InstalledFirstPolicy", "simplesat/dependency_solver.py::_connected_packages"]}
{"id": "C135", "title": "A search that was interrupted can be started again", "statement": "If MiniSATSolver.search() is interrupted (KeyboardInterrupt, or an exception raised by the policy), the solver object can be searched again: the next search ends, returns a solution if the rules have one, and raises SatisfiabilityError otherwise. An interrupted call of DependencySolver.solve does not influence later calls on the same pool.", "quantifier": "every list of rules, every admissible policy, every number of interrupted searches and every point at which they are interrupted; every schedule of unfinished solve calls", "why_tests_cant": "Every point of every search can be the one at which the exception arrives.", "anchors": ["simplesat/sat/minisat.py::MiniSATSolver.search", "simplesat/sat/minisat.py::UNSAT", "simplesat/dependency_solver.py::DependencySolver.solve"]}
{"id": "C136", "title": "A search under assumptions", "statement": "If literals are assumed with MiniSATSolver.assume(p), with propagate() before each of them, then: propagate() gives values only to literals that follow from the rules and the assumptions, and returns a clause only if the rules have no solution with the assumptions; search() returns a solution of the rules in which the assumptions are true, if there is one, and raises SatisfiabilityError otherwise.", "quantifier": "every list of rules, every sequence of assumptions, every admissible policy", "why_tests_cant": "All formulas and all sequences of assumptions; the conflict analysis at a root level above 0 is used by no other entry point.", "anchors": ["simplesat/sat/minisat.py::MiniSATSolver.assume", "simplesat/sat/minisat.py::MiniSATSolver.propagate", "simplesat/sat/minisat.py::MiniSATSolver.search", "simplesat/sat/minisat.py::UNSAT"]}
{"id": "C137", "title": "A request leaves alone what has nothing to do with it", "statement": "If some packages have nothing to do with the other packages of the pool, nor with the jobs (they share no provided name with the others, neither do they depend on or conflict with a name that one of the others provides, nor the other way round, and no job names a name that they provide), then DependencySolver.solve(request) leaves them alone: the installed ones, if they are in order among themselves, are not removed, and none of the others is installed.", "quantifier": "every repository, every request, every such set of packages, every iteration order, with pruning; the first half also without", "why_tests_cant": "All pools, all partitions of them and all requests; the search decides about all packages of the pool in one go, and what it decides about unrelated ones depends on its whole course.", "anchors": ["simplesat/dependency_solver.py::DependencySolver.solve", "simplesat/dependency_solver.py::_connected_packages", "simplesat/sat/policy/undetermined_clause_policy.py::UndeterminedClausePolicy"]}
{"id": "C138", "title": "Jobs about unrelated packages do not get in each other's way", "statement": "If the packages fall into two parts that have nothing to do with each other (no common names, dependencies or conflicts between them), then a request with jobs about one part and jobs about the other one is unsatisfiable exactly if the former jobs alone are, or the latter ones; the jobs named by SatisfiabilityErrorWithHint are all about the same part; and DependencySolver.solve keeps the same installed packages of a part (those that no soft update asks for), and chooses the same packages for the jobs about it, as if only these jobs were asked for, as long as no two of these packages have the same version and no other package has the same name and version.", "quantifier": "every repository, every such partition, all requests and iteration orders", "why_tests_cant": "All pools, all partitions and all pairs of requests; the search handles both parts at once, and its decisions about one part come between those about the other.", "anchors": ["simplesat/dependency_solver.py::DependencySolver.solve", "simplesat/dependency_solver.py::DependencySolver.solve_with_hint", "simplesat/dependency_solver.py::minimal_unsatisfiable_subset", "simplesat/sat/policy/undetermined_clause_policy.py::UndeterminedClausePolicy"]}
{"id": "C139", "title": "Iterating over a pool gives its packages, and their ids", "statement": "After any sequence of add_repository calls Pool.iter_packages() gives every package that was added exactly once, in the order in which the packages were first added; iter_package_ids() (package_ids) gives the ids of these packages and no others; and the package found with the id of an iterated package is that package.", "quantifier": "every history of add_repository calls (successful or refused), all repositories, also with equal packages in several of them", "why_tests_cant": "All sequences of repositories; two dictionaries must stay in step also when equal packages come in again or a repository is refused half-way.", "anchors": ["simplesat/pool.py::Pool.iter_packages", "simplesat/pool.py::Pool.iter_package_ids", "simplesat/pool.py::Pool.add_repository", "simplesat/pool.py::Pool.package_id", "simplesat/pool.py::Pool.id_to_package"]}
{"id": "C140", "title": "The policy logger's texts say which package, and how often", "statement": "In a line that the policy logger prints about a package (in the report and in the histogram) the name of the package and its id can be read, so that the lines of different packages differ; the text of the histogram of a search has one line for each package that was decided, from which its id and how often it was decided can be read, in the order of the counts. From the text of the report (without assignments) the suggested packages, their order and marks, and the backtracking can be read.", "quantifier": "every pool (names and versions without blanks and ends of lines), every id and every log", "why_tests_cant": "All names, versions (of any length, also longer than the column), ids, repository names and logs; the fill characters are next to the version and could be taken for a part of something else.", "anchors": ["simplesat/sat/policy/policy_logger.py::PolicyLogger._log_pretty_pkg_id", "simplesat/sat/policy/policy_logger.py::PolicyLogger._log_histogram", "simplesat/sat/policy/policy_logger.py::PolicyLogger._log_report"]}
