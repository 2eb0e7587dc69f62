{
 "claims": [
  {
   "property": "C01",
   "status": "proved",
   "theorems": [
    "Verif.Props.C01_solution_satisfies_every_rule",
    "Verif.Props.C01_solution_is_a_model"
   ],
   "note": ""
  },
  {
   "property": "C02",
   "status": "proved",
   "theorems": [
    "Verif.Props.C02_error_means_unsatisfiable"
   ],
   "note": ""
  },
  {
   "property": "C03",
   "status": "proved",
   "theorems": [
    "Verif.Props.C03_search_terminates",
    "Verif.Props.C03_answer_independent_of_bound"
   ],
   "note": ""
  },
  {
   "property": "C04",
   "status": "proved",
   "theorems": [
    "Verif.Props.C04_no_internal_failure",
    "Verif.Props.C04_no_internal_failure_ever"
   ],
   "note": ""
  },
  {
   "property": "C05",
   "status": "proved",
   "theorems": [
    "Verif.Props.C05_decides_satisfiability",
    "Verif.Props.C05_order_and_policy_independent"
   ],
   "note": ""
  },
  {
   "property": "C06",
   "status": "partial",
   "theorems": [
    "Verif.Props.C06_violated",
    "Verif.Props.C06_empty_clauses_are_ignored",
    "Verif.Props.C06_status_flag_partial"
   ],
   "note": "The code violates the full property: an empty clause only sets solver.status, which search() never reads (C06_violated is a witness; C06_empty_clauses_are_ignored says exactly what happens instead)."
  },
  {
   "property": "C07",
   "status": "proved",
   "theorems": [
    "Verif.Props.C07_clauses_are_consequences",
    "Verif.Props.C07_clauses_at_failure"
   ],
   "note": ""
  },
  {
   "property": "C08",
   "status": "proved",
   "theorems": [
    "Verif.Props.C08_propagation_complete",
    "Verif.Props.C08_propagation_correct"
   ],
   "note": ""
  },
  {
   "property": "C09",
   "status": "proved",
   "theorems": [
    "Verif.Props.C09_cancel_until_restores"
   ],
   "note": ""
  },
  {
   "property": "C10",
   "status": "proved",
   "theorems": [
    "Verif.Props.C10_validate_iff",
    "Verif.Props.C10_validate_accepts_solutions"
   ],
   "note": ""
  },
  {
   "property": "C11",
   "status": "proved",
   "theorems": [
    "Verif.Props.C11_two_sided_map",
    "Verif.Props.C11_getitem"
   ],
   "note": ""
  },
  {
   "property": "C12",
   "status": "proved",
   "theorems": [
    "Verif.Props.C12_counters"
   ],
   "note": ""
  },
  {
   "property": "C13",
   "status": "proved",
   "theorems": [
    "Verif.Props.C13_changelog_is_net_difference",
    "Verif.Props.C13_consume",
    "Verif.Props.C13_negative_deletion_misfiled"
   ],
   "note": "As the quantifier says, deletions are by variable (as MiniSATSolver.undo_one does); C13_negative_deletion_misfiled shows that the code misfiles a deletion through a negative key."
  },
  {
   "property": "C14",
   "status": "proved",
   "theorems": [
    "Verif.Props.C14_policy_suggests_undecided"
   ],
   "note": ""
  },
  {
   "property": "C15",
   "status": "proved",
   "theorems": [
    "Verif.Props.C15_installed_first_then_newest"
   ],
   "note": ""
  },
  {
   "property": "C16",
   "status": "proved",
   "theorems": [
    "Verif.Props.C16_preferred_kept_any_policy",
    "Verif.Props.C16_preferred_kept"
   ],
   "note": ""
  },
  {
   "property": "C17",
   "status": "proved",
   "theorems": [
    "Verif.Props.C17_groups_are_layers",
    "Verif.Props.C17_groups_are_earliest",
    "Verif.Props.C17_every_node_yielded",
    "Verif.Props.C17_terminates"
   ],
   "note": ""
  },
  {
   "property": "C18",
   "status": "proved",
   "theorems": [
    "Verif.Props.C18_raises_iff_cycle"
   ],
   "note": ""
  },
  {
   "property": "C19",
   "status": "proved",
   "theorems": [
    "Verif.Props.C19_connected_is_reachability",
    "Verif.Props.C19_raises_iff"
   ],
   "note": ""
  },
  {
   "property": "C20",
   "status": "proved",
   "theorems": [
    "Verif.Props.C20_shortest_path_per_target"
   ],
   "note": ""
  },
  {
   "property": "C21",
   "status": "partial",
   "theorems": [
    "Verif.Props.C21_violated_on_cycles",
    "Verif.Props.C21_sound_partial",
    "Verif.Props.C21_exact_without_cycles_partial",
    "Verif.Props.C21_exact_for_first_partial"
   ],
   "note": "False on cyclic graphs (C21_violated_on_cycles: memoised entries of nodes in progress are incomplete). Proved: soundness and direct neighbours for all graphs, exactness for every node that reaches no cycle of length >= 2, and for every key that reaches nothing that an earlier key reaches (so always for the first key)."
  },
  {
   "property": "C22",
   "status": "proved",
   "theorems": [
    "Verif.Props.C22_minimal_unsatisfiable_subset",
    "Verif.Props.C22_empty_input_diverges"
   ],
   "note": ""
  },
  {
   "property": "C23",
   "status": "proved",
   "theorems": [
    "Verif.Props.C23_unexpectedly_satisfiable_iff",
    "Verif.Props.C23_callback_exception"
   ],
   "note": ""
  },
  {
   "property": "C24",
   "status": "proved",
   "theorems": [
    "Verif.Props.C24_matches_meaning",
    "Verif.Props.C24_order_and_repetition_irrelevant"
   ],
   "note": ""
  },
  {
   "property": "C25",
   "status": "partial",
   "theorems": [
    "Verif.Props.C25_modifiers_only_relax_partial",
    "Verif.Props.C25_violated_by_allow_newer",
    "Verif.Props.C25_violated_by_allow_older"
   ],
   "note": "False in full (C25_violated_by_allow_newer / _older: ^= with a build number, build numbers above 999999999); proved with the proviso on build numbers."
  },
  {
   "property": "C26",
   "status": "partial",
   "theorems": [
    "Verif.Props.C26_allow_newer_exactly_partial",
    "Verif.Props.C26_allow_older_exactly_partial",
    "Verif.Props.C26_closed",
    "Verif.Props.C26_above_and_below_accepted_partial",
    "Verif.Props.C26_violated",
    "Verif.Props.C26_allow_any_exactly",
    "Verif.Props.C26_idempotent"
   ],
   "note": "False in full for the same reason as C25 (C26_violated: ^= with a build number, build numbers above 999999999). Proved without proviso: the modified requirement is closed upwards / downwards but for != (C26_closed), allow_any, idempotence; with the proviso of C25: versions above and below accepted ones, and exactly which versions are accepted."
  },
  {
   "property": "C27",
   "status": "proved",
   "theorems": [
    "Verif.Props.C27_other_packages_untouched",
    "Verif.Props.C27_job_queries_ignore_modifiers"
   ],
   "note": ""
  },
  {
   "property": "C28",
   "status": "proved",
   "theorems": [
    "Verif.Props.C28_sets_follow_history",
    "Verif.Props.C28_targets_is_union",
    "Verif.Props.C28_asdict_sorted",
    "Verif.Props.C28_asdict_order_independent"
   ],
   "note": ""
  },
  {
   "property": "C29",
   "status": "partial",
   "theorems": [
    "Verif.Props.C29_same_versions",
    "Verif.Props.C29_equal_partial",
    "Verif.Props.TextExample.C29_violated_build",
    "Verif.Props.TextExample.C29_violated_empty"
   ],
   "note": "The first half (same name, same accepted versions) is proved for every requirement whose versions can be printed and read back; equality is characterised exactly. The code violates 'equals r' for a requirement without constraints (C29_violated_empty) and drops the build of ^= (C29_violated_build)."
  },
  {
   "property": "C30",
   "status": "proved",
   "theorems": [
    "Verif.Props.C30_iteration",
    "Verif.Props.C30_iteration_after_update",
    "Verif.Props.C30_len",
    "Verif.Props.C30_membership"
   ],
   "note": ""
  },
  {
   "property": "C31",
   "status": "partial",
   "theorems": [
    "Verif.Props.C31_order_independent_partial",
    "Verif.Props.C31_names_and_versions_order_independent_partial",
    "Verif.Props.C31_violated"
   ],
   "note": "False in full (C31_violated: different packages with equal name and version keep insertion order); proved for names and versions, and fully when equal name and version imply the same package."
  },
  {
   "property": "C32",
   "status": "partial",
   "theorems": [
    "Verif.Props.C32_find_package_raises_partial",
    "Verif.Props.C32_violated_dash",
    "Verif.Props.C32_find_packages",
    "Verif.Props.C32_find_package_found",
    "Verif.Props.C32_find_package_missing_partial"
   ],
   "note": "find_packages and the successful find_package: in full. The exception: NoPackageFound with the right requirement for every name that can be written in a full name (C32_find_package_raises_partial); SolverException for every name with a dash (C32_violated_dash)."
  },
  {
   "property": "C33",
   "status": "proved",
   "theorems": [
    "Verif.Props.C33_ids_are_consecutive",
    "Verif.Props.C33_round_trip",
    "Verif.Props.C33_ids_are_unique",
    "Verif.Props.C33_package_id_fails_iff",
    "Verif.Props.C33_ids_are_stable"
   ],
   "note": ""
  },
  {
   "property": "C34",
   "status": "proved",
   "theorems": [
    "Verif.Props.C34_what_provides_exactly",
    "Verif.Props.C34_what_provides_order",
    "Verif.Props.C34_what_provides_failure",
    "Verif.Props.C34_versioned_provides_rejected"
   ],
   "note": ""
  },
  {
   "property": "C35",
   "status": "proved",
   "theorems": [
    "Verif.Props.C35_upgrade_is_alone",
    "Verif.Props.C35_accepted_iff",
    "Verif.Props.C35_jobs_in_call_order"
   ],
   "note": ""
  },
  {
   "property": "C36",
   "status": "proved",
   "theorems": [
    "Verif.Props.C36_rules_are_sound"
   ],
   "note": ""
  },
  {
   "property": "C37",
   "status": "proved",
   "theorems": [
    "Verif.Props.C37_rules_are_complete",
    "Verif.Props.C37_satisfiable_iff"
   ],
   "note": ""
  },
  {
   "property": "C38",
   "status": "proved",
   "theorems": [
    "Verif.Props.C38_terminates",
    "Verif.Props.C38_no_repetition",
    "Verif.Props.C38_literals"
   ],
   "note": ""
  },
  {
   "property": "C39",
   "status": "proved",
   "theorems": [
    "Verif.Props.C39_trails",
    "Verif.Props.C39_starts_at_job",
    "Verif.Props.C39_explanations"
   ],
   "note": "C39_explanations: the same for the rules carried by an explanation and for the requirements it names."
  },
  {
   "property": "C40",
   "status": "proved",
   "theorems": [
    "Verif.Props.C40_decides",
    "Verif.Props.C40_unsatisfiable_iff",
    "Verif.Props.C40_order_independent"
   ],
   "note": ""
  },
  {
   "property": "C41",
   "status": "partial",
   "theorems": [
    "Verif.Props.C41_valid_installation_partial",
    "Verif.Props.C41_valid_installation_plain_partial",
    "Verif.Props.C41_jobs_satisfied",
    "Verif.Props.SolveExample.C41_violated_dependency_missing",
    "Verif.Props.SolveExample.C41_violated_conflict",
    "Verif.Props.SolveExample.C41_violated_without_pruning",
    "Verif.Props.SolveExample.C41_key_error",
    "Verif.Props.C41_without_pruning_partial"
   ],
   "note": "False in full: C41_violated_dependency_missing and C41_violated_conflict (pruning keeps one provider per name), C41_violated_without_pruning (artefact packages decided true without rules), C41_key_error (KeyError in pruning). Proved: the requested jobs are met by the result for every pool (C41_jobs_satisfied); validity of the whole result when names are exclusive and tidy (C41_valid_installation_partial), in particular when packages provide only their own names (_plain_partial). Without pruning (C41_without_pruning_partial): the result contains a valid installation for the request, and every package besides is neither installed nor requested nor needed, shares no name with that installation and none of its packages declares a conflict with it."
  },
  {
   "property": "C42",
   "status": "proved",
   "theorems": [
    "Verif.Props.C42_installs_justified",
    "Verif.Props.C42_installs_related",
    "Verif.Props.C42_removes_installed"
   ],
   "note": ""
  },
  {
   "property": "C43",
   "status": "partial",
   "theorems": [
    "Verif.Props.C43_satisfied_request_changes_nothing_partial",
    "Verif.Props.C43_satisfied_request_is_satisfiable",
    "Verif.Props.C43_satisfied_request_removes_nothing",
    "Verif.Props.SolveExample.C43_violated"
   ],
   "note": "False in full (C43_violated: an already satisfied request may install another provider). Proved: such a request is satisfiable, removes nothing, and changes nothing under the stated extra conditions."
  },
  {
   "property": "C44",
   "status": "proved",
   "theorems": [
    "Verif.Props.C44_operations_well_formed"
   ],
   "note": ""
  },
  {
   "property": "C45",
   "status": "proved",
   "theorems": [
    "Verif.Props.C45_decisions_realised",
    "Verif.Props.C45_decisions_realised_exactly",
    "Verif.Props.C45_no_reinstallation"
   ],
   "note": ""
  },
  {
   "property": "C46",
   "status": "partial",
   "theorems": [
    "Verif.Props.C46_pretty_operations_partial",
    "Verif.Props.C46_pretty_operations_own_names",
    "Verif.Props.TransactionExample.C46_three_operations_raise",
    "Verif.Props.TransactionExample.C46_two_removals_become_an_update"
   ],
   "note": "False in general (C46_three_operations_raise: ValueError when two packages provide the name of a removed one; C46_two_removals_become_an_update). Proved under the condition that links pair one removal with one install, and fully for packages that provide only their own names."
  },
  {
   "property": "C47",
   "status": "proved",
   "theorems": [
    "Verif.Props.C47_cycle_raises",
    "Verif.Props.C47_acyclic_accepted",
    "Verif.Props.TransactionExample.C47_acyclic_change_rejected"
   ],
   "note": "C47_acyclic_change_rejected: because packages decided out take part in the graph, an update between two acyclic states can raise ValueError."
  },
  {
   "property": "C48",
   "status": "proved",
   "theorems": [
    "Verif.Props.C48_hard_update_installs_newest"
   ],
   "note": ""
  },
  {
   "property": "C49",
   "status": "partial",
   "theorems": [
    "Verif.Props.C49_upgrade_to_newest_remote_partial",
    "Verif.Props.C49_upgrade_by_name_partial",
    "Verif.Props.C49_jobs",
    "Verif.Props.SolveExample.C49_violated",
    "Verif.Props.SolveExample.C49_upgrade_may_downgrade"
   ],
   "note": "False in full: if another package provides the name in the same version, an upgrade may install that one and leave the installed package as it is (C49_violated). Proved: some package that provides the name in the highest remote version is there, a package of that name if packages provide only their own names. C49_upgrade_may_downgrade: the newest remote version is requested even when a newer version is installed; the theorems state exactly what is requested and obtained."
  },
  {
   "property": "C50",
   "status": "proved",
   "theorems": [
    "Verif.Props.C50_outcomes",
    "Verif.Props.C50_hint_is_minimal"
   ],
   "note": ""
  },
  {
   "property": "C51",
   "status": "partial",
   "theorems": [
    "Verif.Props.C51_result",
    "Verif.Props.C51_result_valid_partial",
    "Verif.Props.C51_result_valid_plain_partial",
    "Verif.Props.C51_found_iff",
    "Verif.Props.C51_unsatisfiable_iff",
    "Verif.Props.C51_default_modifiers_type_error",
    "Verif.Props.FunctionsExample.C51_violated"
   ],
   "note": "C51_result (all pools): given packages, no duplicates, every requirement met, dependencies first. That the result contains all dependencies is false in full (C51_violated) and proved when names are exclusive. C51_default_modifiers_type_error: the documented default modifiers=None always raises TypeError."
  },
  {
   "property": "C52",
   "status": "partial",
   "theorems": [
    "Verif.Props.C52_dependencies_are_packages",
    "Verif.Props.C52_dependencies",
    "Verif.Props.C52_reverse_dependencies",
    "Verif.Props.C52_dual",
    "Verif.Props.C52_transitive_bounds",
    "Verif.Props.C52_reverse_transitive_bounds",
    "Verif.Props.C52_transitive_partial",
    "Verif.Props.C52_reverse_transitive_partial",
    "Verif.Props.C52_leaves",
    "Verif.Props.C52_leaves_partial",
    "Verif.Props.C52_returns",
    "Verif.Props.ComputeExample.C52_transitive_violated",
    "Verif.Props.ComputeExample.C52_leaves_violated"
   ],
   "note": "Direct dependencies, reverse dependencies, duality proved. Transitive closure false on cycles (C52_transitive_violated); leaf packages false when another package provides the same name and version (C52_leaves_violated; C52_leaves states exactly what is returned)."
  },
  {
   "property": "C53",
   "status": "partial",
   "theorems": [
    "Verif.Props.C53_packages_from_requirements_partial",
    "Verif.Props.C53_returns_iff",
    "Verif.Props.C53_requirements_from_packages",
    "Verif.Props.C53_requirement_matches_partial",
    "Verif.Props.C53_round_trip_partial",
    "Verif.Props.FunctionsExample.C53_type_error",
    "Verif.Props.FunctionsExample.C53_violated"
   ],
   "note": "False in full: a package of another name that provides the name in the same version is selected by the generated requirement too (C53_violated), and packages that differ only in their repository make packages_from_requirements raise TypeError (C53_type_error; C53_returns_iff says exactly when). Proved: what is returned, the generated requirements, and that exactly the given packages are selected again if packages provide only their own names (C53_round_trip_partial)."
  },
  {
   "property": "C54",
   "status": "partial",
   "theorems": [
    "Verif.Props.C54_exact",
    "Verif.Props.C54_name_version",
    "Verif.Props.C54_refuses",
    "Verif.Props.C54_accepts_partial",
    "Verif.Props.C54_from_package_string",
    "Verif.Props.TextExample.C54_violated_newline"
   ],
   "note": "C54_exact characterises the accepted strings; the code also accepts a trailing newline ($ matches before it), witness C54_violated_newline."
  },
  {
   "property": "C55",
   "status": "partial",
   "theorems": [
    "Verif.Props.C55_name",
    "Verif.Props.C55_exactly",
    "Verif.Props.C55_round_trip_partial",
    "Verif.Props.C55_several_refused",
    "Verif.Props.TextExample.C55_violated"
   ],
   "note": "False for two or more constraints: str(r) is refused, for all such requirements (C55_several_refused; witness C55_violated). Proved for at most one non-trivial constraint. For names that are not ASCII see C101."
  },
  {
   "property": "C56",
   "status": "partial",
   "theorems": [
    "Verif.Props.C56_strict_mode_partial",
    "Verif.Props.C56_nothing_installed_partial",
    "Verif.Props.RulesExample.C56_strict_type_error"
   ],
   "note": "C56_strict_type_error: strict mode raises TypeError (not a documented error) when an installed package, or a package reached from one, has a missing dependency or conflict; the theorems state exactly when each exception is raised."
  },
  {
   "property": "C57",
   "status": "proved",
   "theorems": [
    "Verif.Props.C57_lexicographic_preference"
   ],
   "note": ""
  },
  {
   "property": "C58",
   "status": "proved",
   "theorems": [
    "Verif.Props.C58_newest_requirement"
   ],
   "note": ""
  },
  {
   "property": "C59",
   "status": "proved",
   "theorems": [
    "Verif.Props.C59_then_open_clauses",
    "Verif.Props.C59_newest_of_open_clauses"
   ],
   "note": ""
  },
  {
   "property": "C60",
   "status": "proved",
   "theorems": [
    "Verif.Props.C60_install_requirements_never_fail",
    "Verif.Props.C60_other_requirements_unchanged_or_rejected",
    "Verif.Props.C60_versioned_conflict_on_target_rejected",
    "Verif.Props.C60_rejected_iff"
   ],
   "note": "C60_rejected_iff says exactly when a conflict is rejected."
  },
  {
   "property": "C61",
   "status": "proved",
   "theorems": [
    "Verif.Props.C61_no_package_found",
    "Verif.Props.C61_unsatisfiable_iff",
    "Verif.Props.C61_only_value_error",
    "Verif.Props.C61_solution_found_iff",
    "Verif.Props.SolveExample.C61_cycle_value_error"
   ],
   "note": ""
  },
  {
   "property": "C62",
   "status": "partial",
   "theorems": [
    "Verif.Props.C62_simplified",
    "Verif.Props.C62_mem",
    "Verif.Props.C62_equivalent_partial",
    "Verif.Props.C62_irredundant",
    "Verif.Props.C62_returns",
    "Verif.Props.FunctionsExample.C62_violated_versions",
    "Verif.Props.FunctionsExample.C62_violated_cycle"
   ],
   "note": "Equivalence is false in full: C62_violated_versions (a requirement matched by two versions becomes unsatisfiable), C62_violated_cycle (cyclic dependencies disappear)."
  },
  {
   "property": "C63",
   "status": "proved",
   "theorems": [
    "Verif.Props.C63_modifiers_irrelevant",
    "Verif.Props.C63_solve_leaves",
    "Verif.Props.C63_history_irrelevant",
    "Verif.Props.C63_reuse",
    "Verif.Props.C63_fresh_pool",
    "Verif.Props.C63_lookup_after"
   ],
   "note": "Sessions are lists of calls with their effects (Verif/Solve/Session.lean), including the repeated calls of solve inside solve_with_hint. Not modelled: aliasing of the modifiers object of a request that the user changes later (it can only change pool.modifiers, which solve overwrites)."
  },
  {
   "property": "C64",
   "status": "partial",
   "theorems": [
    "Verif.Props.C64_satisfiable_correct",
    "Verif.Props.C64_unsatisfiable_iff",
    "Verif.Props.C64_satisfiable_iff",
    "Verif.Props.C64_no_package_found",
    "Verif.Props.C64_consistent_correct_partial",
    "Verif.Props.C64_inconsistent_iff_partial",
    "Verif.Props.C64_complete_correct",
    "Verif.Props.FunctionsExample.C64_consistent_violated"
   ],
   "note": "requirements_are_satisfiable/_complete proved; a requirement no package meets raises NoPackageFound instead (C64_no_package_found). packages_are_consistent is wrong when a package provides another's name (C64_consistent_violated). The functions return a namedtuple, which is always truthy; the theorems are about its field is_satisfiable."
  },
  {
   "property": "C65",
   "status": "proved",
   "theorems": [
    "Verif.Props.C65_explanation_is_built",
    "Verif.Props.C65_explanation_can_be_read",
    "Verif.Props.C65_text"
   ],
   "note": ""
  },
  {
   "property": "C66",
   "status": "proved",
   "theorems": [
    "Verif.Props.C66_chains",
    "Verif.Props.C66_paths"
   ],
   "note": ""
  },
  {
   "property": "C67",
   "status": "partial",
   "theorems": [
    "Verif.Props.C67_derivation_partial",
    "Verif.Props.UnsatExample.C67_names_nothing",
    "Verif.Props.UnsatExample.C67_prints_nothing",
    "Verif.Props.UnsatExample.C67_names_too_little"
   ],
   "note": "False in full: C67_names_nothing and C67_prints_nothing (an explanation with no path, no requirement and an empty message), C67_names_too_little (names one requirement that is satisfiable on its own). Proved: the explanation lists exactly the rules involved that have requirements; the involved rules refute the conflicting literal, and are unsatisfiable when a one-literal rule assigned it."
  },
  {
   "property": "C68",
   "status": "partial",
   "theorems": [
    "Verif.Props.C68_round_trip",
    "Verif.Props.C68_identity_partial",
    "Verif.Props.PackageTextExample.C68_violated_empty",
    "Verif.Props.PackageTextExample.C68_violated_disjunction",
    "Verif.Props.PackageTextExample.C68_violated_repeated"
   ],
   "note": "The code violates the full property: an empty conjunction is lost (C68_violated_empty), several conjunctions for a name become one (C68_violated_disjunction, C68_violated_repeated). C68_round_trip says exactly what comes back in general; C68_identity_partial gives the identity for packages in the form that the parser makes. Braces in constraint strings (str.format on a template containing them) are excluded by hypothesis."
  },
  {
   "property": "C69",
   "status": "partial",
   "theorems": [
    "Verif.Props.C69_reads_what_is_written_partial",
    "Verif.Props.C69_refuses",
    "Verif.Props.C69_only_value_error",
    "Verif.Props.C69_accepts_only",
    "Verif.Props.PackageTextExample.C69_violated_twice",
    "Verif.Props.PackageTextExample.C69_violated_ignored",
    "Verif.Props.PackageTextExample.C69_violated_item"
   ],
   "note": "Strings of the documented form: proved (C69_reads_what_is_written_partial, C69_refuses), for all strings: C69_accepts_only (the part before the semicolon) and C69_only_value_error. The code violates the property in that a second block of a kind replaces the first and that text that is not a block is ignored (C69_violated_twice, C69_violated_ignored, C69_violated_item)."
  },
  {
   "property": "C70",
   "status": "proved",
   "theorems": [
    "Verif.Props.C70_clauses",
    "Verif.Props.C70_well_formed",
    "Verif.Props.C70_solver"
   ],
   "note": "j = 1 or k = 1 raises ZeroDivisionError. waerden_8 and waerden_9 follow from a run of the modelled solver."
  },
  {
   "property": "C71",
   "status": "partial",
   "theorems": [
    "Verif.Props.C71_exact",
    "Verif.Props.C71_accepts_partial",
    "Verif.Props.C71_reads",
    "Verif.Props.C71_errors_partial",
    "Verif.Props.C71_lone_version",
    "Verif.Props.C71_lone_operator",
    "Verif.Props.C71_operator_star",
    "Verif.Props.C71_violated_brace"
   ],
   "note": "C71_exact: which strings the code accepts, and their meaning, for all strings and version factories. The property as stated needs that the version factory refuses stars and operators (C71_accepts_partial); C71_lone_version, C71_lone_operator and C71_operator_star are the violations. C71_violated_brace: every string without comma and with exactly one brace raises an exception of str.format. The theorems hold for any classes of letters and digits, in particular those of ASCII, which the scanner uses."
  },
  {
   "property": "C72",
   "status": "partial",
   "theorems": [
    "Verif.Props.C72_exact",
    "Verif.Props.C72_reads",
    "Verif.Props.C72_two_names",
    "Verif.Props.C72_only_commas",
    "Verif.Props.C72_sign_name",
    "Verif.Props.C72_errors_partial",
    "Verif.Props.C72_violated_brace"
   ],
   "note": "C72_exact: which strings the code accepts, and their meaning. Well formed strings: C72_reads, C72_two_names. C72_sign_name and C72_only_commas are the violations. C72_violated_brace: braces, as in C71."
  },
  {
   "property": "C73",
   "status": "proved",
   "theorems": [
    "Verif.Props.C73_most_common",
    "Verif.Props.C73_log_is_faithful",
    "Verif.Props.C73_replay",
    "Verif.Props.C73_package_policy",
    "Verif.Props.C73_histogram"
   ],
   "note": "About loggedPolicy (policy_logger.py) around any policy that only reads; C73_package_policy is the library's own. C73_histogram and C73_most_common: the counts and the order of the lines of the histogram. The layout of the lines is not modelled; the report is in C100."
  },
  {
   "property": "C74",
   "status": "proved",
   "theorems": [
    "Verif.Props.C74_same_result",
    "Verif.Props.C74_same_decisions",
    "Verif.Props.C74_package_policy"
   ],
   "note": "History relates the questions asked; the assignments returned differ at most in their changelogs (shown to differ by an example)."
  },
  {
   "property": "C75",
   "status": "proved",
   "theorems": [
    "Verif.Props.C75_new_keys"
   ],
   "note": "For every sequence of operations."
  },
  {
   "property": "C76",
   "status": "partial",
   "theorems": [
    "Verif.Props.C76_solve_deterministic_partial",
    "Verif.Props.C76_transaction_deterministic",
    "Verif.Props.C76_prefer_order_matters",
    "Verif.Props.C76_policy_order_matters",
    "Verif.Props.C76_installed_order_matters",
    "Verif.Props.C76_violated",
    "Verif.Props.C76_reachable_versions_partial",
    "Verif.Props.C76_same_kept_partial",
    "Verif.Props.C76_same_choice_partial"
   ],
   "note": "The full property is violated (C76_violated; C76_prefer_order_matters, C76_policy_order_matters and C76_installed_order_matters show that each condition of Harmless is needed). Proved: equal results whenever the orders that decide ties between packages of equal version agree or there is no tie, and no two installed packages share name and version; the orders of the roots, of set.pop and of the installed ids never matter then. C76_reachable_versions_partial: ties matter only among packages that can be reached from the request and the installed packages. C76_same_kept_partial, C76_same_choice_partial: for arbitrary orders, what is kept and what is chosen for the jobs is the same if the packages concerned have different versions."
  },
  {
   "property": "C77",
   "status": "proved",
   "theorems": [
    "Verif.Props.C77_more_packages",
    "Verif.Props.MonotoneExample.C77_not_for_hard_updates"
   ],
   "note": "Hard updates and upgrades ask for the newest version and are excluded: C77_not_for_hard_updates is a counterexample."
  },
  {
   "property": "C78",
   "status": "proved",
   "theorems": [
    "Verif.Props.C78_fewer_jobs",
    "Verif.Props.C78_fewer_jobs_plain",
    "Verif.Props.C78_any_jobs"
   ],
   "note": "C78_any_jobs is the full property; C78_fewer_jobs speaks of the jobs after the conversion of an upgrade, C78_fewer_jobs_plain of requests without upgrade."
  },
  {
   "property": "C79",
   "status": "partial",
   "theorems": [
    "Verif.Props.C79_repeating_soft_updates_partial",
    "Verif.Props.ChoiceExample.C79_violated_soft",
    "Verif.Props.C79_repeating_changes_nothing_partial",
    "Verif.Props.C79_repeating_changes_nothing_plain_partial",
    "Verif.Props.MonotoneExample.C79_violated"
   ],
   "note": "Proved for requests without upgrades: with install, remove and hard-update jobs (under the conditions of C41/C43), and with soft updates if no two different packages that the jobs ask for have the same version. Violated otherwise: C79_violated (an upgrade can be unsatisfiable the second time), C79_violated_soft (soft updates with version ties: another process takes one update back and makes the other)."
  },
  {
   "property": "C80",
   "status": "partial",
   "theorems": [
    "Verif.Props.ScenarioExample.C80_violated_twice",
    "Verif.Props.ScenarioExample.C80_violated_constraint",
    "Verif.Props.ScenarioExample.C80_violated_unsat",
    "Verif.Props.ScenarioExample.C80_no_upgrade",
    "Verif.Props.C80_jobs",
    "Verif.Props.C80_marks_partial",
    "Verif.Props.C80_modifiers",
    "Verif.Props.C80_accepted"
   ],
   "note": "C80_jobs, C80_modifiers and C80_accepted hold for every document. The full property is violated (C80_violated_twice, C80_violated_constraint, C80_violated_unsat): of a package marked twice, or marked with a version, a mark remains although an entry asks for its removal. C80_marks_partial: distinct marks."
  },
  {
   "property": "C81",
   "status": "partial",
   "theorems": [
    "Verif.Props.ScenarioExample.C81_violated_lost",
    "Verif.Props.C81_packages",
    "Verif.Props.C81_repositories",
    "Verif.Props.C81_all_offered_partial"
   ],
   "note": "Violated for two texts with the same name and version (C81_violated_lost). C81_packages and C81_repositories say for every document what the repositories hold (the last of such texts); C81_all_offered_partial is the full property for distinct names and versions."
  },
  {
   "property": "C82",
   "status": "proved",
   "theorems": [
    "Verif.Props.C82_operations"
   ],
   "note": "Sound and complete: readOperation accepts an entry exactly when it describes the operation."
  },
  {
   "property": "C83",
   "status": "partial",
   "theorems": [
    "Verif.Props.C83_jobs_satisfied",
    "Verif.Props.C83_decides",
    "Verif.Props.C83_valid_installation_partial"
   ],
   "note": "The conditions of C41's partial theorems are needed for C83_valid_installation_partial only; that the two descriptions of an installed and a remote package agree follows here from the way the file is read."
  },
  {
   "property": "C84",
   "status": "proved",
   "theorems": [
    "Verif.Props.C84_given_up_only_if_necessary",
    "Verif.Props.C84_kept_if_possible",
    "Verif.Props.C84_kept_set_is_maximal"
   ],
   "note": "C57 carried over to packages and valid installations. The preference order is by version, older ones first."
  },
  {
   "property": "C85",
   "status": "proved",
   "theorems": [
    "Verif.Props.C85_newest_possible",
    "Verif.Props.C85_newest_for_one_job"
   ],
   "note": "C58 carried over to packages and valid installations. Packages of the same name and version are not distinguished (the transaction leaves out an install if a package of that name and version is installed), and are assumed to differ in the repository only (TwinsAlike)."
  },
  {
   "property": "C86",
   "status": "partial",
   "theorems": [
    "Verif.Props.C86_where_it_stops_partial",
    "Verif.Props.C86_other_names_partial",
    "Verif.Props.C86_other_ids_partial",
    "Verif.Props.RefusedExample.C86_violated"
   ],
   "note": "Violated (C86_violated): the packages before the offending one stay in the pool. Proved: exactly which packages stay, that requirements for names not provided by the repository are answered as before, that answers only grow by packages of that part, and that other packages keep their ids."
  },
  {
   "property": "C87",
   "status": "proved",
   "theorems": [
    "Verif.Props.C87_text",
    "Verif.Props.C87_simple_text",
    "Verif.Props.C87_str"
   ],
   "note": "Ordinary states what is assumed of the texts of names and versions; an example shows that names with line feeds can be misread."
  },
  {
   "property": "C88",
   "status": "proved",
   "theorems": [
    "Verif.Props.C88_text",
    "Verif.Props.C88_unambiguous",
    "Verif.Props.C88_message",
    "Verif.Props.C88_message_unambiguous"
   ],
   "note": "C88_text: the text consists of blocks of true facts (Fact.Holds) along the chains of rules; C88_unambiguous: equal lines state equal facts and requirements."
  },
  {
   "property": "C89",
   "status": "partial",
   "theorems": [
    "Verif.Props.C89_questions_partial",
    "Verif.Props.C89_after_additions",
    "Verif.Props.C89_known_names_partial",
    "Verif.Props.PoolHistoryExample.C89_violated"
   ],
   "note": "Violated (C89_violated). Proved: the exact exception, for all histories; and that the name of a package of the pool can be asked for without effect."
  },
  {
   "property": "C90",
   "status": "partial",
   "theorems": [
    "Verif.Props.C90_unpickled_partial",
    "Verif.Props.C90_copy_of_copy",
    "Verif.Props.C90_refuses",
    "Verif.Props.PoolHistoryExample.C90_violated"
   ],
   "note": "Violated (C90_violated). Proved: equal answers for calls about known names, and that every call about a new name fails on the copy. Trusted: the pickle protocol (the object is rebuilt from what __reduce__ returns)."
  },
  {
   "property": "C91",
   "status": "proved",
   "theorems": [
    "Verif.Props.C91_same",
    "Verif.Props.C91_explained",
    "Verif.Props.C91_first_missing"
   ],
   "note": "C91_explained: the data of every exception but SatisfiabilityError are right; C91_first_missing: the converse for NoPackageFound; C91_same ties the model with data to the one of all other claims."
  },
  {
   "property": "C92",
   "status": "partial",
   "theorems": [
    "Verif.Props.C92_refused_partial",
    "Verif.Props.BlameExample.C92_violated_dependency"
   ],
   "note": "Violated (C92_violated_dependency: the order of two jobs decides whether strict mode complains). Proved: refusal of every request that concerns an incomplete package which is no dependency candidate of packages the request leads to."
  },
  {
   "property": "C93",
   "status": "partial",
   "theorems": [
    "Verif.Props.C93_clauses_read_back",
    "Verif.Props.C93_key",
    "Verif.Props.C93_header_partial",
    "Verif.Props.C93_problem",
    "Verif.Props.C93_contradiction",
    "Verif.Props.C93_same_solver",
    "Verif.Props.C93_answer_partial",
    "Verif.Props.C93_jobs_satisfied",
    "Verif.Props.C93_violated_initialize",
    "Verif.Props.DimacsExample.C93_violated_header"
   ],
   "note": "Violated (C93_violated_header, C93_violated_initialize). Proved: the clauses and the key are read back exactly; the header is right iff the variables are 1..n; the problem is the one solve works on, and satisfiable iff the request has a valid installation; every answer satisfies the jobs, and gives a valid installation under the conditions of C41. Trusted: json.dumps with its default settings."
  },
  {
   "property": "C94",
   "status": "proved",
   "theorems": [
    "Verif.Props.C94_same_outcome",
    "Verif.Props.C94_same_outcome_with_hint",
    "Verif.Props.C94_same_constraints",
    "Verif.Props.C94_constraint_met"
   ],
   "note": "For all pools, pairs of corresponding requests and set orders. C94_same_constraints: constraints as sets; C94_constraint_met: rewritten constraints."
  },
  {
   "property": "C95",
   "status": "partial",
   "theorems": [
    "Verif.Props.C95_always_true",
    "Verif.Props.C95_violated",
    "Verif.Props.C95_satisfiable_partial"
   ],
   "note": "The code violates it: C95_always_true (for every input), C95_violated. Proved: satisfiable rules give True."
  },
  {
   "property": "C96",
   "status": "partial",
   "theorems": [
    "Verif.Props.C96_same_solution_partial",
    "Verif.Props.C96_right_iff_partial",
    "Verif.Props.C96_violated_next",
    "Verif.Props.C96_violated_added",
    "Verif.Props.C96_violated_unit",
    "Verif.Props.C96_violated_after_failure",
    "Verif.Props.C96_violated_setup"
   ],
   "note": "The code violates it: C96_violated_next, _added, _unit, _after_failure, _setup. Proved: what every sequence of calls after a successful search gives, and when that is right."
  },
  {
   "property": "C97",
   "status": "partial",
   "theorems": [
    "Verif.Props.C97_equal_iff",
    "Verif.Props.C97_equivalence",
    "Verif.Props.C97_hash",
    "Verif.Props.C97_not_equal",
    "Verif.Props.C97_same_kind_partial",
    "Verif.Props.C97_violated_raises",
    "Verif.Props.C97_violated_order",
    "Verif.Props.C97_matches",
    "Verif.Props.C97_package_fields",
    "Verif.Props.C97_text",
    "Verif.Props.C97_violated_provides",
    "Verif.Props.C97_violated_class"
   ],
   "note": "The code violates it: C97_violated_raises, _order, _provides, _class. Proved: which objects are equal, equivalence, hashes, !=, no exception within a kind, what equal objects share."
  },
  {
   "property": "C98",
   "status": "partial",
   "theorems": [
    "Verif.Props.C98_views",
    "Verif.Props.C98_subscript",
    "Verif.Props.C98_get_partial",
    "Verif.Props.C98_get_none_partial",
    "Verif.Props.C98_violated_get",
    "Verif.Props.C98_constructor",
    "Verif.Props.C98_roundtrip"
   ],
   "note": "The code violates it for get with a default: C98_violated_get. Proved: all the other views, and get with default None."
  },
  {
   "property": "C99",
   "status": "proved",
   "theorems": [
    "Verif.Props.C99_lines",
    "Verif.Props.C99_injective",
    "Verif.Props.C99_solve_with_hint"
   ],
   "note": "For requirements whose text has no line feed."
  },
  {
   "property": "C100",
   "status": "partial",
   "theorems": [
    "Verif.Props.C100_report_partial",
    "Verif.Props.C100_violated_last",
    "Verif.Props.C100_violated_installed",
    "Verif.Props.C100_without_assignments",
    "Verif.Props.C100_package_policy_partial",
    "Verif.Props.ReportExample.C100_violated_backtracked"
   ],
   "note": "The code violates it: C100_violated_last, _installed, _backtracked. Proved: the report tells every question but the last; BACKTRACKED exactly if a package lost its value, and only after a conflict."
  },
  {
   "property": "C101",
   "status": "partial",
   "theorems": [
    "Verif.Props.C101_name_partial",
    "Verif.Props.C101_foreign_refused",
    "Verif.Props.C101_violated"
   ],
   "note": "Proved for ASCII names (C101_name_partial). C101_foreign_refused: no requirement string with a letter or digit outside ASCII is ever accepted; C101_violated: such names are accepted in full names and refused as requirements."
  },
  {
   "property": "C102",
   "status": "partial",
   "theorems": [
    "Verif.Props.C102_names",
    "Verif.Props.C102_solve_partial",
    "Verif.Props.C102_functions_partial",
    "Verif.Props.C102_leaves_partial",
    "Verif.Props.C102_violated_installed",
    "Verif.Props.C102_violated_candidate",
    "Verif.Props.NamedExample.C102_violated_two_versions"
   ],
   "note": "C102_names: exactly the names that are words of ASCII and dots, versions or operators are read as themselves. Proved that parsing changes nothing for ASCII names and versions read back (C102_solve_partial, C102_functions_partial, C102_leaves_partial). C102_violated_installed, C102_violated_candidate: names that are refused (with a dash, with a foreign letter) make solve raise; C102_violated_two_versions: a name with a blank."
  },
  {
   "property": "C103",
   "status": "proved",
   "theorems": [
    "Verif.Props.C103_asking_for_less",
    "Verif.Props.C103_wider_versions"
   ],
   "note": "C103_asking_for_less in terms of the available packages that meet a requirement, C103_wider_versions in terms of versions."
  },
  {
   "property": "C104",
   "status": "partial",
   "theorems": [
    "Verif.Props.C104_more_modifiers_partial",
    "Verif.Props.MetamorphicExample.C104_violated"
   ],
   "note": "C104_violated: allow_newer makes a solvable request unsatisfiable (`^= 1-3` against 1-1). C104_more_modifiers_partial proves it under the condition on build numbers of C25."
  },
  {
   "property": "C105",
   "status": "proved",
   "theorems": [
    "Verif.Props.C105_unasked_packages",
    "Verif.Props.C105_unasked_packages_plain"
   ],
   "note": "Both directions; the extra packages may be installed, may be anywhere in the order, may conflict with anything."
  },
  {
   "property": "C106",
   "status": "proved",
   "theorems": [
    "Verif.Props.C106_strict_or_refused",
    "Verif.Props.C106_same_answers"
   ],
   "note": "C106_strict_or_refused: equal outcomes or one of three exceptions; C106_same_answers is the consequence for transactions and SatisfiabilityError."
  },
  {
   "property": "C107",
   "status": "proved",
   "theorems": [
    "Verif.Props.C107_lines",
    "Verif.Props.C107_packages",
    "Verif.Props.C107_refuses",
    "Verif.Props.C107_round_trip",
    "Verif.Props.C107_pool_and_repository"
   ],
   "note": "Written is the specification: the lines of a text, in any layout. C107_lines: every text has exactly one list of lines."
  },
  {
   "property": "C108",
   "status": "proved",
   "theorems": [
    "Verif.Props.C108_entries",
    "Verif.Props.C108_succeeds",
    "Verif.Props.C108_refuses"
   ],
   "note": "Exports is the specification of an entry, Exportable of the packages that have one."
  },
  {
   "property": "C109",
   "status": "partial",
   "theorems": [
    "Verif.Props.C109_versions_partial",
    "Verif.Props.C109_constraints_partial",
    "Verif.Props.C109_entries_partial",
    "Verif.Props.C109_equal_partial",
    "Verif.Props.C109_violated_equal",
    "Verif.Props.ComposerExample.C109_violated_table",
    "Verif.Props.ComposerExample.C109_violated_conflicts"
   ],
   "note": "Proved up to zeros at the end, for upstream versions that are not in the table. C109_violated_table: 1.0a3 and 1.0b1 have the same text; C109_violated_conflicts: conflicts are not exported; C109_violated_equal: == v-0 never has the text of the version v-0."
  },
  {
   "property": "C110",
   "status": "proved",
   "theorems": [
    "Verif.Props.C110_parts",
    "Verif.Props.C110_refuses"
   ],
   "note": "SendsJob is the specification of a part."
  },
  {
   "property": "C111",
   "status": "partial",
   "theorems": [
    "Verif.Props.C111_export_partial",
    "Verif.Props.C111_succeeds",
    "Verif.Props.C111_files_partial",
    "Verif.Props.ComposerExample.C111_violated_failure",
    "Verif.Props.ComposerExample.C111_violated_remotes"
   ],
   "note": "Proved for the first remote repository. C111_violated_remotes: the others are not exported; C111_violated_failure: a failed export leaves an empty file in place of the previous one."
  },
  {
   "property": "C112",
   "status": "proved",
   "theorems": [
    "Verif.Props.C112_written",
    "Verif.Props.C112_is_satisfable",
    "Verif.Props.C112_solve_sat",
    "Verif.Props.C112_rules_of_request",
    "Verif.Props.C112_installation"
   ],
   "note": "The program is assumed to meet CorrectMinisat; idealMinisat_correct: this can be met."
  },
  {
   "property": "C113",
   "status": "proved",
   "theorems": [
    "Verif.Props.C113_unreached_packages_do_not_matter",
    "Verif.Props.C113_unreached_packages_do_not_matter_with_hint",
    "Verif.Props.C113_same_transaction"
   ],
   "note": "Outcomes are equal for corresponding iteration orders of sets (C76: they can matter); C113_same_transaction: equal for all orders if the versions are distinct."
  },
  {
   "property": "C114",
   "status": "proved",
   "theorems": [
    "Verif.Props.C114_renumbered_rules",
    "Verif.Props.C114_renumbered_packages"
   ],
   "note": ""
  },
  {
   "property": "C115",
   "status": "proved",
   "theorems": [
    "Verif.Props.C115_calls_of_the_callback",
    "Verif.Props.C115_calls_for_a_small_core",
    "Verif.Props.C115_calls_of_solve"
   ],
   "note": "The callback notes its calls (Solve/MusCalls)."
  },
  {
   "property": "C116",
   "status": "proved",
   "theorems": [
    "Verif.Props.C116_history",
    "Verif.Props.C116_others_unchanged",
    "Verif.Props.C116_update",
    "Verif.Props.C116_remove",
    "Verif.Props.C116_new_modifiers",
    "Verif.Props.C116_new_request",
    "Verif.Props.C116_solve",
    "Verif.Props.C116_session"
   ],
   "note": "Assigning to attributes (m.allow_any = s) and lists of jobs handed around by the user are not modelled."
  },
  {
   "property": "C117",
   "status": "partial",
   "theorems": [
    "Verif.Props.C117_follows_the_request",
    "Verif.Props.C117_answers_stay_partial",
    "Verif.Props.C117_without_modifiers",
    "Verif.Props.AliasingExample.C117_violated"
   ],
   "note": "The full property is violated (C117_violated): solve leaves a reference to the modifiers of the request in the pool (dependency_solver.py:395-396). Proved: the exact answer (C117_follows_the_request), and equal answers as long as no call is aimed at the modifiers that the pool refers to."
  },
  {
   "property": "C118",
   "status": "proved",
   "theorems": [
    "Verif.Props.C118_yielded",
    "Verif.Props.C118_items",
    "Verif.Props.C118_readable",
    "Verif.Props.C118_transaction"
   ],
   "note": "repr of a text and the iteration order of a set are parameters."
  },
  {
   "property": "C119",
   "status": "proved",
   "theorems": [
    "Verif.Props.C119_remote_irrelevant",
    "Verif.Props.C119_upgrade_newest_only",
    "Verif.Props.C119_upgrade_refused",
    "Verif.Props.C119_unknown_installed"
   ],
   "note": ""
  },
  {
   "property": "C120",
   "status": "proved",
   "theorems": [
    "Verif.Props.C120_rules_then_learned",
    "Verif.Props.C120_nothing_learned_twice",
    "Verif.Props.C120_after_success",
    "Verif.Props.C120_after_failure",
    "Verif.Props.C120_one_turn",
    "Verif.Props.C120_learned_bound"
   ],
   "note": ""
  },
  {
   "property": "C121",
   "status": "partial",
   "theorems": [
    "Verif.Props.C121_lookup_known",
    "Verif.Props.C121_lookup_missing",
    "Verif.Props.C121_copies_are_equal",
    "Verif.Props.C121_copy_shares",
    "Verif.Props.C121_append_where_shared",
    "Verif.Props.C121_keys_are_its_own",
    "Verif.Props.C121_deep_copies_are_independent",
    "Verif.Props.C121_copies_behave_alike_partial",
    "Verif.Props.DefaultDictExample.C121_deepcopy_violated",
    "Verif.Props.DefaultDictExample.C121_pickle_violated"
   ],
   "note": "False in full: deepcopy copies each item without the memo, so two keys that hold the same list hold two lists in the copy (C121_deepcopy_violated); __reduce__ hands over default_factory() instead of the factory, so an unpickled dictionary raises TypeError for a missing key and cannot be pickled again (C121_pickle_violated). Proved: lookup, equality of all copies, exact sharing, independence of deep and unpickled copies for all histories, and equal behaviour: always for copy, for deepcopy if no list is there twice, for pickle until TypeError is raised (C121_copies_behave_alike_partial)."
  },
  {
   "property": "C122",
   "status": "partial",
   "theorems": [
    "Verif.Props.C122_first_and_last",
    "Verif.Props.C122_between",
    "Verif.Props.C122_no_clash",
    "Verif.Props.C122_dependencies_met_or_replaced",
    "Verif.Props.C122_interrupted_in_order_partial",
    "Verif.Props.C122_only_installs",
    "Verif.Props.C122_only_removals",
    "Verif.Props.C122_resume",
    "Verif.Props.InterruptedExample.C122_violated",
    "Verif.Props.InterruptedExample.C122_violated_pretty"
   ],
   "note": "False in full: all removals come before all installs, so a package that is kept is without its dependency between the removal and the installation of an update (C122_violated); following the pretty operations, where an update is one step, can put packages that conflict side by side (C122_violated_pretty). Proved for every crash point: packages from one side only, kept packages stay, one per name, no conflict; dependencies are met except those of kept packages that are being replaced (C122_dependencies_met_or_replaced); in order in full if kept packages depend on kept ones, or nothing is removed, or nothing is installed; the request can still be satisfied (C122_resume)."
  },
  {
   "property": "C123",
   "status": "proved",
   "theorems": [
    "Verif.Props.C123_number_of_rules",
    "Verif.Props.C123_no_tautology",
    "Verif.Props.C123_length_of_rules"
   ],
   "note": "Both bounds are reached (examples beside the theorem). A candidate that provides a name twice can make a literal occur twice in a rule, so the length is counted in different literals."
  },
  {
   "property": "C124",
   "status": "partial",
   "theorems": [
    "Verif.Props.C124_undisturbed_partial",
    "Verif.Props.C124_same_modifiers",
    "Verif.Props.C124_one_after_the_other",
    "Verif.Props.SharedExample.C124_violated",
    "Verif.Props.SharedExample.C124_violated_failure"
   ],
   "note": "False in full: solve writes the modifiers of its request into the shared pool (dependency_solver.py:396) and reads them there later, so a call that begins in between makes another one return a transaction for a request that cannot be satisfied (C124_violated), or fail for one that can (C124_violated_failure). Proved for every schedule: a call is right whenever its own modifiers are in the pool when it generates its rules and makes its transaction (C124_undisturbed_partial); so always if all requests have the same modifiers or none (C124_same_modifiers), and always for calls that follow one another (C124_one_after_the_other)."
  },
  {
   "property": "C125",
   "status": "proved",
   "theorems": [
    "Verif.Graph.C125_paths_so_far",
    "Verif.Graph.C125_every_target_gets_its_turn",
    "Verif.Graph.C125_ends_iff",
    "Verif.Graph.C125_complete_at_the_end",
    "Verif.Graph.C125_asks_only_as_far_as_needed",
    "Verif.Graph.C125_visited_is_a_tree_of_shortest_paths",
    "Verif.Graph.C125_consumed_to_the_end",
    "Verif.Graph.C125_connected_asks_once",
    "Verif.Graph.C125_connected_never_asks_twice"
   ],
   "note": "The generator is a step machine; C20 is its run to the end without a dictionary (C125_consumed_to_the_end). Ends-iff is an exact characterisation, also for endless graphs."
  },
  {
   "property": "C126",
   "status": "partial",
   "theorems": [
    "Verif.Props.C126_containers",
    "Verif.Props.C126_any_iterable_partial",
    "Verif.Props.C126_consistent_violated",
    "Verif.Props.C126_complete_violated",
    "Verif.Props.C126_simplify_violated"
   ],
   "note": "False in full: packages_are_consistent reads its packages twice and raises NoPackageFound for every non-empty iterator (C126_consistent_violated); requirements_are_complete reads its requirements twice and says yes for every iterator (C126_complete_violated); simplify_requirements reads its packages twice and simplifies nothing (C126_simplify_violated). The other functions, and these with the other argument an iterator, answer the same (C126_any_iterable_partial)."
  },
  {
   "property": "C127",
   "status": "partial",
   "theorems": [
    "Verif.Props.C127_nothing_is_missed",
    "Verif.Props.C127_only_members",
    "Verif.Props.C127_in_step_partial",
    "Verif.Props.C127_undisturbed",
    "Verif.Props.C127_update_with_itself_never_ends",
    "Verif.Props.C127_update_with_copy",
    "Verif.Props.IterationExample.C127_violated"
   ],
   "note": "False in full: a package is yielded again when another is added before it (C127_violated), and repository.update(repository) never ends (C127_update_with_itself_never_ends). Proved for every interleaving: nothing that was there is missed, and only members are yielded; exactly the final content, sorted, when packages are only added behind the point reached (C127_in_step_partial)."
  },
  {
   "property": "C128",
   "status": "partial",
   "theorems": [
    "Verif.Props.C128_again",
    "Verif.Props.C128_first",
    "Verif.Props.C128_same_every_time",
    "Verif.Props.C128_growing_request_partial",
    "Verif.Props.RulesAgainExample.C128_violated",
    "Verif.Props.RulesAgainExample.C128_violated_modifiers"
   ],
   "note": "False in full: _rules_set is never emptied, so that rules of an earlier state of the pool or of its modifiers stay, and the rules of a request that can be satisfied cannot (C128_violated, C128_violated_modifiers). Proved: exactly what a further call returns, whatever the generator has (C128_again); the same rules as long as nothing changes (C128_same_every_time); equally good rules while jobs are only added to the request (C128_growing_request_partial)."
  },
  {
   "property": "C129",
   "status": "partial",
   "theorems": [
    "Verif.Props.C129_each_its_own",
    "Verif.Props.C129_changelog_stays",
    "Verif.Props.C129_ids_are_live_partial",
    "Verif.Props.AssignmentObjectsExample.C129_violated",
    "Verif.Props.AssignmentObjectsExample.C129_violated_write"
   ],
   "note": "False in full: assigned_ids and new_keys hand out the live sets, which change later (C129_violated; C129_ids_are_live_partial says how), and a changelog that the caller changes is returned again (C129_violated_write). Proved for every history: AssignmentSets behave as values of their own (C129_each_its_own), and a changelog that was handed out stays as it was (C129_changelog_stays), on which PolicyLogger relies."
  },
  {
   "property": "C130",
   "status": "partial",
   "theorems": [
    "Verif.Props.C130_timing_changes_nothing",
    "Verif.Props.C130_elapsed_partial",
    "Verif.Props.C130_reused",
    "Verif.Props.C130_which_timers",
    "Verif.Props.TimersExample.C130_violated",
    "Verif.Props.C130_violated_str"
   ],
   "note": "False in full: after NoPackageFound, and after a SatisfiabilityError that is raised when the SAT solver is set up, later timers say the time of an earlier call (C130_violated), and a timer that has not run is written with NaN, since __str__ looks for None (C130_violated_str, for every sequence of calls). Proved: timing changes nothing, which timers a call sets, and that they are right for calls that return."
  },
  {
   "property": "C131",
   "status": "partial",
   "theorems": [
    "Verif.Props.C131_never_contradict_partial",
    "Verif.Props.C131_same_failures_partial",
    "Verif.Props.C131_added_in_any_order",
    "Verif.Props.RepositoryOrderExample.C131_violated",
    "Verif.Props.RepositoryOrderExample.C131_transaction_depends_on_order"
   ],
   "note": "False for hard updates: of two equally new packages the one of the repository that is listed first is required, so that the order of the repositories decides whether the request is satisfiable (C131_violated). Proved for all requests without such a tie (C131_never_contradict_partial, and with well-formed packages C131_same_failures_partial), and exact equality for another order of additions (C131_added_in_any_order)."
  },
  {
   "property": "C132",
   "status": "partial",
   "theorems": [
    "Verif.Props.C132_uploaded",
    "Verif.Props.C132_any_moment_partial",
    "Verif.Props.C132_nothing_lost",
    "Verif.Props.C132_equal_assets_stay",
    "Verif.Props.C132_at_most_one_missing",
    "Verif.Props.C132_refuses",
    "Verif.Props.C132_run_again",
    "Verif.Props.C132_repeating",
    "Verif.Props.ReleaseExample.C132_violated"
   ],
   "note": "False with --force or --replace: the old asset is deleted before the new one is uploaded, so that a failure in between loses it (C132_violated). Proved: at most one asset is missing at any moment, and only after an exception with one of the options; nothing is lost without the options; everything else of the statement."
  },
  {
   "property": "C133",
   "status": "partial",
   "theorems": [
    "Verif.Props.C133_at_most_eight_attempts",
    "Verif.Props.C133_ends",
    "Verif.Props.C133_nothing_lost",
    "Verif.Props.C133_there_afterwards",
    "Verif.Props.C133_answered",
    "Verif.Props.C133_run_again",
    "Verif.Props.C133_force_partial",
    "Verif.Props.ReleaseExample.C133_violated_force",
    "Verif.Props.ReleaseExample.C133_violated_page",
    "Verif.Props.ReleaseExample.C133_violated_garbled"
   ],
   "note": "False: with --force the old release is deleted first, and lost if the new one cannot be made (C133_violated_force); only the first 30 releases are read, so that an older release with the tag is not seen and a second one made (C133_violated_page); a list that is no JSON counts as no release (C133_violated_garbled: JSONDecodeError is a ValueError). Proved: termination after at most 8 attempts, nothing lost without --force, what exactly happens if all requests are answered, and that repeating is safe, of the releases that are listed."
  },
  {
   "property": "C134",
   "status": "partial",
   "theorems": [
    "Verif.Props.C134_never_unsatisfiable",
    "Verif.Props.C134_doomed_go",
    "Verif.Props.C134_removes_exactly_partial",
    "Verif.Props.C134_installs_nothing_partial",
    "Verif.Props.C134_plain_partial",
    "Verif.Props.RemovalExample.C134_violated",
    "Verif.Props.RemovalExample.C134_violated_unrelated"
   ],
   "note": "False if another version can take the place of a package that has to go: it is installed, with its dependencies, even if nothing needs it (C134_violated), and installed packages that have nothing to do with the removal are removed if it conflicts with them (C134_violated_unrelated). Proved: never unsatisfiable (C134_never_unsatisfiable); what has to go goes (C134_doomed_go, for all requests); exactly that, and nothing installed, if no package shares a name with one that has to go but need not go itself (C134_removes_exactly_partial, C134_installs_nothing_partial, C134_plain_partial)."
  },
  {
   "property": "C135",
   "status": "partial",
   "theorems": [
    "Verif.Props.C135_resumed_partial",
    "Verif.Props.C135_succeeds_iff_partial",
    "Verif.Props.C135_before_decisions",
    "Verif.Props.C135_solve",
    "Verif.Props.C135_violated",
    "Verif.Props.C135_violated_assertion",
    "Verif.Props.C135_violated_lost",
    "Verif.Props.C135_violated_lost_at_once"
   ],
   "note": "False for search(): the level at which it begins is its root level, so decisions of the interrupted search stay in force, and it raises SatisfiabilityError (C135_violated) or AssertionError (C135_violated_assertion) for rules that have a solution. Exceptions that come within propagate() lose clauses, and after two of them a search may return an assignment that is no solution (C135_violated_lost, C135_violated_lost_at_once). Proved, for exceptions between two turns or when the policy is asked: the search that is started again ends, what it returns is a solution, and it fails exactly if there is no solution with the decisions that are in force (C135_resumed_partial, C135_succeeds_iff_partial); without decisions in force the property holds (C135_before_decisions); for solve it holds (C135_solve)."
  },
  {
   "property": "C136",
   "status": "partial",
   "theorems": [
    "Verif.Props.C136_implied",
    "Verif.Props.C136_conflict",
    "Verif.Props.C136_search_partial",
    "Verif.Props.C136_succeeds_iff",
    "Verif.Props.C136_violated",
    "Verif.Props.C136_violated_unchecked"
   ],
   "note": "False in one point: if there is no solution, the search may end with AssertionError (C136_violated), since UNSAT takes it that the learned clause is a unit clause; and without propagate() in between even with IndexError (C136_violated_unchecked). Proved: everything else (C136_implied, C136_conflict, C136_succeeds_iff, C136_search_partial)."
  },
  {
   "property": "C137",
   "status": "partial",
   "theorems": [
    "Verif.Props.C137_kept",
    "Verif.Props.C137_nothing_installed_partial",
    "Verif.Props.C137_stays_out",
    "Verif.Props.ApartExample.C137_violated",
    "Verif.Props.ApartExample.C137_violated_empty"
   ],
   "note": "False in one point: where an installed and a remote package provide a common name that an installed package needs, the remote one may be installed although nothing needs it, and with it its dependencies (C137_violated, C137_violated_empty). Proved: nothing is removed (C137_kept); nothing is installed if none of these packages is installed (C137_stays_out), or if those that provide a common name exclude each other (C137_nothing_installed_partial)."
  },
  {
   "property": "C138",
   "status": "proved",
   "theorems": [
    "Verif.Props.C138_part",
    "Verif.Props.C138_together",
    "Verif.Props.C138_unsatisfiable_iff",
    "Verif.Props.C138_hint",
    "Verif.Props.C138_same_kept",
    "Verif.Props.C138_same_choice"
   ],
   "note": "C138_unsatisfiable_iff, C138_together, C138_part (satisfiability), C138_hint, C138_same_kept, C138_same_choice. Among packages of the same version the choice depends on the order of a set (C76), hence the condition on versions."
  },
  {
   "property": "C139",
   "status": "partial",
   "theorems": [
    "Verif.Props.C139_each_package_once",
    "Verif.Props.C139_first_ones",
    "Verif.Props.C139_last_id",
    "Verif.Props.C139_ids_partial",
    "Verif.Props.C139_counts_partial",
    "Verif.Props.PoolIterEx.C139_violated"
   ],
   "note": "C139_each_package_once, C139_first_ones and C139_last_id hold for every history. C139_ids_partial: the ids are exactly those of the iterated packages if and only if no two equal packages were added (C139_counts_partial: the same for their numbers). C139_violated: a package in two repositories has two ids, of which one belongs to no iterated package, and the package found with the other one can provide other names than the iterated one (equality ignores `provides`)."
  },
  {
   "property": "C140",
   "status": "proved",
   "theorems": [
    "Verif.Props.C140_words",
    "Verif.Props.C140_lines_differ",
    "Verif.Props.C140_histogram_text",
    "Verif.Props.C140_empty",
    "Verif.Props.C140_report_text"
   ],
   "note": "C140_words, C140_lines_differ (a line about a package), C140_histogram_text, C140_empty (the text of the histogram), C140_report_text (the text of the report without assignments; what its parts are is C100). The version is followed by dots for an odd id, so that a version that may end with a dot cannot be read back; the id tells the package. Not modelled: the layout of the assignment changes in a report with assignments."
  }
 ]
}