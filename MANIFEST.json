{
 "claims": [
  {
   "property": "C01",
   "status": "proved",
   "theorems": [
    "Verif.C01_execute_sound"
   ],
   "note": ""
  },
  {
   "property": "C02",
   "status": "proved",
   "theorems": [
    "Verif.C02_at_most_once"
   ],
   "note": ""
  },
  {
   "property": "C03",
   "status": "proved",
   "theorems": [
    "Verif.C03_only_needed"
   ],
   "note": ""
  },
  {
   "property": "C04",
   "status": "proved",
   "theorems": [
    "Verif.C04_execute_complete",
    "Verif.C04_request_order_independent",
    "Verif.C04_subset_succeeds"
   ],
   "note": ""
  },
  {
   "property": "C05",
   "status": "proved",
   "theorems": [
    "Verif.C05_override_eq_constant"
   ],
   "note": ""
  },
  {
   "property": "C06",
   "status": "proved",
   "theorems": [
    "Verif.C06_validated_never_missing"
   ],
   "note": ""
  },
  {
   "property": "C07",
   "status": "partial",
   "theorems": [
    "Verif.C07_rejection_justified_partial",
    "Verif.C07_violated"
   ],
   "note": "Violated by the code (C07_violated: a required input supplied only through overrides is rejected by validation). The partial theorem covers every case in which neither the reported input nor one of its consumers is overridden."
  },
  {
   "property": "C08",
   "status": "proved",
   "theorems": [
    "Verif.C08_arguments"
   ],
   "note": ""
  },
  {
   "property": "C09",
   "status": "proved",
   "theorems": [
    "Verif.C09_downstream",
    "Verif.C09_upstream"
   ],
   "note": ""
  },
  {
   "property": "C10",
   "status": "proved",
   "theorems": [
    "Verif.C10_path_between",
    "Verif.C10_path_unknown",
    "Verif.C10_nodes_between"
   ],
   "note": ""
  },
  {
   "property": "C11",
   "status": "partial",
   "theorems": [
    "Verif.C11_plan_exact_partial",
    "Verif.C11_violated"
   ],
   "note": "The plan is characterised exactly and contains every invoked function. Violated only for optional inputs supplied through overrides (C11_violated)."
  },
  {
   "property": "C12",
   "status": "proved",
   "theorems": [
    "Verif.C12_sorted",
    "Verif.C12_acyclic_complete",
    "Verif.C12_levels"
   ],
   "note": ""
  },
  {
   "property": "C13",
   "status": "proved",
   "theorems": [
    "Verif.C13_wiring",
    "Verif.C13_nodes"
   ],
   "note": ""
  },
  {
   "property": "C14",
   "status": "proved",
   "theorems": [
    "Verif.C14_resolution",
    "Verif.C14_duplicate_rejected"
   ],
   "note": ""
  },
  {
   "property": "C15",
   "status": "proved",
   "theorems": [
    "Verif.C15_config_input_clash"
   ],
   "note": ""
  },
  {
   "property": "C16",
   "status": "partial",
   "theorems": [
    "Verif.TaskLimits.C16_violated_values",
    "Verif.C16_dependencies_done",
    "Verif.C16_values_legitimate_partial",
    "Verif.C16_results_passed_partial"
   ],
   "note": "C16_dependencies_done holds for every plan. Values: proved for plans whose blocks each have one collector and whose block names contain no ':'; C16_violated_values: a node named like a cache key is given another node's value."
  },
  {
   "property": "C17",
   "status": "partial",
   "theorems": [
    "Verif.TaskLimits.C17_violated",
    "Verif.C17_submitted_at_most_once_partial",
    "Verif.C17_submitted_exactly_once_partial"
   ],
   "note": "Proved for plans in which every task depends on tasks of the plan and each expander has one collector (the plans of sealed blocks and of all plain graphs); C17_violated: an overridden collector is submitted twice."
  },
  {
   "property": "C18",
   "status": "partial",
   "theorems": [
    "Verif.TaskLimits.C18_violated_block_use",
    "Verif.C18_never_stuck_partial",
    "Verif.C18_terminates_partial",
    "Verif.C18_violated_empty"
   ],
   "note": "Proved for every plan with at least one task in which block tasks are used only through their collector; violated for a call that requests nothing (C18_violated_empty) and for a block node used outside of its block (C18_violated_block_use)."
  },
  {
   "property": "C19",
   "status": "partial",
   "theorems": [
    "Verif.C19_violated",
    "Verif.C19_same_values_partial",
    "Verif.C19_same_success_partial"
   ],
   "note": "Proved for every strategy that partitions the nodes (all four of the library, C50) and every schedule; C19_violated: an override that is also given as an input with another value."
  },
  {
   "property": "C20",
   "status": "partial",
   "theorems": [
    "Verif.TaskLimits.C20_violated",
    "Verif.TaskLimits.C20_violated_two",
    "Verif.C20_collect_in_order_partial"
   ],
   "note": "Proved for blocks with at least one node and one collector; C20_violated: a collector directly on the expander gets a nested list; C20_violated_two: with two collectors of one expander one is never run."
  },
  {
   "property": "C21",
   "status": "partial",
   "theorems": [
    "Verif.C21_overrides_win_partial",
    "Verif.C21_violated"
   ],
   "note": "Proved for overrides that are not also given as inputs; violated otherwise in task-based mode (C21_violated: the input wins)."
  },
  {
   "property": "C22",
   "status": "proved",
   "theorems": [
    "Verif.C22_pool_bound",
    "Verif.C22_grants"
   ],
   "note": ""
  },
  {
   "property": "C23",
   "status": "partial",
   "theorems": [
    "Verif.TaskLimits.C23_violated",
    "Verif.C23_failing_task_raises_partial",
    "Verif.C23_same_work_partial"
   ],
   "note": "Proved for every plan in which tasks submitted under one id do the same work, which holds for the plans of C17; C23_violated: with two collectors of one expander the failure of one is lost."
  },
  {
   "property": "C24",
   "status": "partial",
   "theorems": [
    "Verif.TaskLimits.C24_violated",
    "Verif.C24_isolated_partial",
    "Verif.C24_results_kept_partial"
   ],
   "note": "Proved for names without ':' in graphs with Parallelizable nodes (no condition otherwise); C24_violated: a node named like a cache key of a branch is overwritten."
  },
  {
   "property": "C25",
   "status": "partial",
   "theorems": [
    "Verif.C25_transparent_partial",
    "Verif.CacheSample.C25_violated_input",
    "Verif.CacheSample.C25_violated_default",
    "Verif.CacheSample.C25_violated_loader"
   ],
   "note": "Proved for every history, for both metadata stores, for sessions satisfying Session.Valid (inputs do not name functions, no IGNORE, no cached savers, default values recorded under parameter names, loader data not tuples, names without commas). Three of the exclusions are necessary: C25_violated_input, C25_violated_default, C25_violated_loader."
  },
  {
   "property": "C26",
   "status": "partial",
   "theorems": [
    "Verif.C26_crash_partial"
   ],
   "note": "Proved for every kill point between two store operations, under the same conditions on sessions as C25. Kill inside a write: see C51."
  },
  {
   "property": "C27",
   "status": "partial",
   "theorems": [
    "Verif.C27_same_type_partial",
    "Verif.C27_violated",
    "Verif.C27_violated_depth"
   ],
   "note": "Equal fingerprints of same-typed values imply equal values, given a collision-free digest with well-formed output; across types and below the depth limit the code collides (C27_violated, C27_violated_depth)."
  },
  {
   "property": "C28",
   "status": "partial",
   "theorems": [
    "Verif.C28_set",
    "Verif.C28_dict_partial",
    "Verif.C28_dict_typed_keys",
    "Verif.C28_equal_values",
    "Verif.C28_sequence",
    "Verif.C28_violated"
   ],
   "note": "Sets, dicts with distinct key fingerprints, sequences and equal values get the same fingerprint regardless of order; a dict whose keys collide depends on insertion order (C28_violated)."
  },
  {
   "property": "C29",
   "status": "partial",
   "theorems": [
    "Verif.C29_decode_partial",
    "Verif.C29_injective_partial",
    "Verif.C29_order",
    "Verif.C29_violated"
   ],
   "note": "Decoding and injectivity hold for plain names and a lawful codec; sanitisation identifies different names and a dash in the sanitised name breaks decoding (C29_violated)."
  },
  {
   "property": "C30",
   "status": "partial",
   "theorems": [
    "Verif.C30_memory_get",
    "Verif.C30_memory_exists",
    "Verif.C30_sqlite_exists",
    "Verif.C30_sqlite_get_partial",
    "Verif.C30_agree_partial",
    "Verif.C30_run_ids",
    "Verif.C30_violated",
    "Verif.C30_violated_runs"
   ],
   "note": "Both stores return the version set last, but SQLite keeps the first of two conflicting versions and run listings differ (C30_violated, C30_violated_runs); agreement is proved when versions are determined by the key."
  },
  {
   "property": "C31",
   "status": "partial",
   "theorems": [
    "Verif.C31_always_executed_partial",
    "Verif.CacheSample.C31_violated"
   ],
   "note": "Violated: result and metadata of an IGNORE node are stored (metadata under key None). Proved: it is executed in every successful run."
  },
  {
   "property": "C32",
   "status": "proved",
   "theorems": [
    "Verif.C32_always_executed",
    "Verif.C32_disable_no_store"
   ],
   "note": "Both halves proved without conditions on the stores."
  },
  {
   "property": "C33",
   "status": "partial",
   "theorems": [
    "Verif.C33_performed_partial",
    "Verif.CacheSample.C33_violated"
   ],
   "note": "Violated: the version of a data saver is constant, so a later run may return the metadata of another save. Proved: when the save is performed its own metadata is returned."
  },
  {
   "property": "C34",
   "status": "partial",
   "theorems": [
    "Verif.C34_precedence_partial",
    "Verif.C34_follow",
    "Verif.C34_conflict",
    "Verif.C34_total",
    "Verif.BehSample.C34_violated_loader_default",
    "Verif.BehSample.C34_violated_everything"
   ],
   "note": "Proved for every node that does not follow another node, plus conflicts, totality and loaders that follow a node of the graph; violated for @load_from loaders: default_loader_behavior and recompute=True etc. are ignored for them (two witnesses)."
  },
  {
   "property": "C35",
   "status": "partial",
   "theorems": [
    "Verif.C35_node_partial",
    "Verif.C35_run_partial",
    "Verif.C35_adapter_set",
    "Verif.HookSample.C35_violated_interrupt",
    "Verif.HookSample.C35_violated_masked"
   ],
   "note": "Grammar of hook calls proved for single nodes and whole runs when only subclasses of Exception are raised; violated for interrupts (post hooks told success, or called though a pre hook was interrupted) and when a post hook raises (later hooks skipped, the function's exception masked)."
  },
  {
   "property": "C36",
   "status": "partial",
   "theorems": [
    "Verif.C36_values",
    "Verif.C36_no_caught_error",
    "Verif.C36_isolated",
    "Verif.C36_untouched",
    "Verif.C36_total",
    "Verif.GracefulSample.C36_violated_sentinel_value"
   ],
   "note": "Values, isolation in both directions, totality and absence of caught errors proved for nodes that are not Parallelizable; the 'iff' of the statement is violated when a function returns the sentinel value itself."
  },
  {
   "property": "C37",
   "status": "partial",
   "theorems": [
    "Verif.C37_partial",
    "Verif.DecorSample.C37_violated_names",
    "Verif.DecorSample.C37_violated_warn"
   ],
   "note": "Both directions and the error proved for validators whose names cannot be mistaken for the second occurrence of another one or for the raw node (ClearNames) and that do not raise on the value; violated when a WARN validator raises: the run fails, and when a validator is named like the second occurrence of another: the graph cannot be built (witnesses)."
  },
  {
   "property": "C38",
   "status": "partial",
   "theorems": [
    "Verif.C38_selection",
    "Verif.C38_names_partial",
    "Verif.C38_first_build",
    "Verif.ConfigSample.C38_violated_rebuild",
    "Verif.ConfigSample.C38_violated_stacked",
    "Verif.ConfigSample.C38_violated_private_name"
   ],
   "note": "Selection, names and first build proved; violated when the same module is built a second time with stacked or renaming config decorators (functions are renamed in place) and when the resolved name starts with an underscore (three witnesses)."
  },
  {
   "property": "C39",
   "status": "partial",
   "theorems": [
    "Verif.C39_partial",
    "Verif.DecorSample.C39_violated_default",
    "Verif.DecorSample.C39_violated_leak"
   ],
   "note": "Proved as an equivalence for all parameterizations whose sources have a value; violated for sources that are optional inputs not supplied: KeyError instead of the default, or a literal of another parameter leaks in (two witnesses)."
  },
  {
   "property": "C40",
   "status": "partial",
   "theorems": [
    "Verif.C40_faithful_partial",
    "Verif.C40_final_partial",
    "Verif.C40_parameterized",
    "Verif.C40_isolated",
    "Verif.SubdagSample.C40_violated_config",
    "Verif.SubdagSample.C40_violated_unused"
   ],
   "note": "Proved under SubdagSetting (mapped inputs are used by the subdag's own nodes, configuration keys are not function names, no name escapes the namespace): values of the namespaced nodes and of the decorated function equal those of a separate driver run; isolation and parameterized_subdag. The two missing cases are violations with witnesses."
  },
  {
   "property": "C41",
   "status": "partial",
   "theorems": [
    "Verif.C41_dict",
    "Verif.C41_field_partial",
    "Verif.DecorSample.C41_violated_name"
   ],
   "note": "Dictionary node and field nodes proved for all dictionaries, fields and fill values; violated for a function called field_to_extract (KeyError)."
  },
  {
   "property": "C42",
   "status": "proved",
   "theorems": [
    "Verif.C42_prune",
    "Verif.C42_no_selection"
   ],
   "note": ""
  },
  {
   "property": "C43",
   "status": "partial",
   "theorems": [
    "Verif.C43_independent",
    "Verif.C43_copy_partial",
    "Verif.C43_rebuild_partial",
    "Verif.C43_driver_partial",
    "Verif.C43_settings",
    "Verif.BuilderSample.C43_violated_copy",
    "Verif.BuilderSample.C43_violated_rebuild",
    "Verif.BuilderSample.C43_violated_driver"
   ],
   "note": "Proved for all programs of builder operations: independence of builders and copies, settings after any sequence of calls. Partial: copy without allow_module_overrides, rebuild without with_adapter, built drivers without later with_config on the builder; each missing case is a violation with a witness."
  },
  {
   "property": "C44",
   "status": "proved",
   "theorems": [
    "Verif.C44_matches",
    "Verif.C44_list",
    "Verif.C44_other"
   ],
   "note": ""
  },
  {
   "property": "C45",
   "status": "partial",
   "theorems": [
    "Verif.C45_partial",
    "Verif.ConfigSample.C45_violated_foreign"
   ],
   "note": "Proved when no foreign module's name contains the loaded module's name; violated otherwise: the module test is a substring test (witness)."
  },
  {
   "property": "C46",
   "status": "partial",
   "theorems": [
    "Verif.C46_values_partial",
    "Verif.C46_materializers",
    "Verif.C46_driver",
    "Verif.MaterializeSample.C46_violated_clash"
   ],
   "note": "C46_materializers and C46_driver: adding materializers never changes the value of a node (C46_driver needs the modified graph to be acyclic). C46_values_partial: loaders act exactly like overrides with the loaded values. Missing: a graph that already has a node named load_data.<target>, where the claim is false (C46_violated_clash)."
  },
  {
   "property": "C47",
   "status": "partial",
   "theorems": [
    "Verif.C47_deterministic",
    "Verif.C47_terminates",
    "Verif.C47_same_values_partial",
    "Verif.C47_same_as_sync_partial",
    "Verif.AsyncSample.C47_violated_order",
    "Verif.AsyncSample.C47_violated_input"
   ],
   "note": "Proved for every schedule of the event loop with respect to the functional composition with keyword arguments sorted by name (C47_deterministic, C47_terminates). Equality with the default driver holds for functions that do not depend on the order of keyword arguments; violated for **kwargs functions that do (C47_violated_order) and for requested names that are only inputs (C47_violated_input). Lifecycle hooks, cancellation and awaitable inputs are not modelled."
  },
  {
   "property": "C48",
   "status": "proved",
   "theorems": [
    "Verif.C48_partition",
    "Verif.C48_unknown",
    "Verif.C48_single"
   ],
   "note": ""
  },
  {
   "property": "C49",
   "status": "partial",
   "theorems": [
    "Verif.C49_refl",
    "Verif.C49_any",
    "Verif.C49_sound_partial",
    "Verif.C49_union_member",
    "Verif.C49_classes",
    "Verif.C49_exact",
    "Verif.C49_markers",
    "Verif.C49_accepts",
    "Verif.C49_edges",
    "Verif.C49_values_partial",
    "Verif.C49_inputs_exact",
    "Verif.C49_inputs_accepted_partial",
    "Verif.TypesSample.C49_violated_generic",
    "Verif.TypesSample.C49_violated_union",
    "Verif.TypesSample.C49_violated_order",
    "Verif.TypesSample.C49_violated_tuple",
    "Verif.TypesSample.C49_violated_mapping"
   ],
   "note": "types_match, custom_subclass_check, check_input_type and the type checks of graph construction are modelled. Reflexivity, Any, union members, exactness on classes, edges checked and acceptance in every order (pairwise comparable input types) are proved. Soundness is partial. Violated by unparameterised generic classes (C49_violated_generic), unions on both sides (C49_violated_union), the order of functions (C49_violated_order), Tuple[...] inputs (C49_violated_tuple) and Mapping inputs (C49_violated_mapping)."
  },
  {
   "property": "C50",
   "status": "partial",
   "theorems": [
    "Verif.C50_blocks",
    "Verif.C50_default_plan",
    "Verif.C50_individually",
    "Verif.C50_blocks_plain",
    "Verif.C50_all_as_one",
    "Verif.C50_by_level",
    "Verif.C50_violated"
   ],
   "note": "All four strategies partition nodes without Parallelizable; the default strategy partitions graphs of separate blocks, with exactly the nodes between expander and collector in a block, and the resulting plan runs to the end. C50_violated: a block that uses an earlier collected result makes the default strategy put nodes in two tasks."
  },
  {
   "property": "C51",
   "status": "partial",
   "theorems": [
    "Verif.CacheSample.C51_violated"
   ],
   "note": "Violated: the truncated file makes later runs raise. What holds is C26."
  },
  {
   "property": "C52",
   "status": "partial",
   "theorems": [
    "Verif.C52_rerun_partial"
   ],
   "note": "Proved for every history and both metadata stores, under the conditions of Session.Valid (as for C25), default behaviour everywhere and hashable values."
  },
  {
   "property": "C53",
   "status": "partial",
   "theorems": [
    "Verif.C53_loader_partial",
    "Verif.C53_saver_partial",
    "Verif.MaterializeSample.C53_violated_source",
    "Verif.MaterializeSample.C53_violated_literal",
    "Verif.MaterializeSample.C53_violated_saved",
    "Verif.MaterializeSample.C53_violated_ids"
   ],
   "note": "Each loader target / materializer node has exactly the values of its class on the declared arguments and data. Missing, with machine-checked witnesses: two arguments with the same source, source named like a literal argument, saved node named like a saver argument, duplicate materializer ids. Exactly-once follows from C02 on the modified graph."
  },
  {
   "property": "C54",
   "status": "proved",
   "theorems": [
    "Verif.C54_needed_cycle_fails",
    "Verif.C54_recursion_needs_cycle",
    "Verif.C54_any_limit",
    "Verif.C54_other_requests"
   ],
   "note": "RecursionError is modelled as running out of fuel; C54_any_limit shows that no fuel helps. Python's recursion limit on very deep acyclic graphs is not modelled."
  },
  {
   "property": "C55",
   "status": "partial",
   "theorems": [
    "Verif.C55_accepted",
    "Verif.C55_one_cache_partial",
    "Verif.C55_executors_partial",
    "Verif.BuilderSample.C55_violated_caches",
    "Verif.BuilderSample.C55_violated_local"
   ],
   "note": "The accepted sequences are characterised exactly as the code has them (C55_accepted). Two contradictions are accepted (witnesses): several caches in one with_adapters call (or one given to with_adapter), and a local executor followed by a manager, which is then ignored. Argument checks of with_materializers are not modelled."
  },
  {
   "property": "C56",
   "status": "partial",
   "theorems": [
    "Verif.C56_sequential_partial",
    "Verif.C56_reading_unique_partial",
    "Verif.C56_schedule_partial",
    "Verif.C56_complete_partial",
    "Verif.TaskSample.C56_violated_override",
    "Verif.TaskSample.C56_violated_inner"
   ],
   "note": "Proved for the default grouping and calls in which every needed collector has one expander and vice versa, block values are used only in their block and by the collector, nothing of a block is overridden, given as input or requested, names have neither ':' nor '-', inputs and overrides of one name agree. C56_violated_override, C56_violated_inner: overrides inside of a block give an empty list or a KeyError."
  },
  {
   "property": "C57",
   "status": "partial",
   "theorems": [
    "Verif.C57_input_partial",
    "Verif.C57_output_partial",
    "Verif.C57_violated_async",
    "Verif.PipeSample.C57_violated_literal",
    "Verif.PipeSample.C57_violated_same_source",
    "Verif.PipeSample.C57_violated_default",
    "Verif.PipeSample.C57_violated_on_input",
    "Verif.PipeSample.C57_violated_namespace",
    "Verif.PipeSample.C57_violated_names",
    "Verif.PipeSample.C57_violated_stacked"
   ],
   "note": "Proved for steps in which no two arguments come from one node, no argument comes from a node called like a parameter given a literal, and unmentioned optional parameters have no value in the graph; piped parameter has a value. Violations: C57_violated_literal (wrong value), _same_source, _default, _on_input, _namespace, _names, _stacked, _async."
  },
  {
   "property": "C58",
   "status": "partial",
   "theorems": [
    "Verif.C58_others_unchanged",
    "Verif.C58_value_partial",
    "Verif.MutateSample.C58_violated_on_output",
    "Verif.MutateSample.C58_violated_stacked"
   ],
   "note": "Proved for targets with no @pipe_output or one without on_output (conditions on steps as in C57); frame proved without conditions. C58_violated_on_output, C58_violated_stacked: an existing restricted or second @pipe_output changes what is mutated."
  },
  {
   "property": "C59",
   "status": "partial",
   "theorems": [
    "Verif.C59_code",
    "Verif.C59_diff_partial",
    "Verif.C59_edited_partial",
    "Verif.C59_dataflow",
    "Verif.VersionSample.C59_violated_step",
    "Verif.VersionSample.C59_violated_input",
    "Verif.VersionSample.C59_violated_added",
    "Verif.VersionSample.C59_violated_indented",
    "Verif.VersionSample.C59_violated_none",
    "Verif.VersionSample.C59_violated_edges"
   ],
   "note": "Proved for nodes made from functions whose source parses and whose versions exist (printing and hashing assumed injective). Violations: editing the function of a pipe step changes no version (stale cache), inputs are reported edited with their first consumer, unparsable (indented) source, nodes without version, edited decorator arguments held in variables."
  },
  {
   "property": "C60",
   "status": "partial",
   "theorems": [
    "Verif.C60_interleaving",
    "Verif.C60_one_by_one",
    "Verif.C60_config",
    "Verif.C60_resolve_partial",
    "Verif.StackSample.C60_violated_order",
    "Verif.StackSample.C60_violated_exclusive",
    "Verif.StackSample.C60_violated_validate",
    "Verif.StackSample.C60_violated_dropped"
   ],
   "note": "Interleaving, one-by-one reading and configuration are proved for all stacks; for @resolve only if its decorator is valid, nothing of the same kind is stacked above and the function is not excluded. Violations: @resolve'd decorators are applied last in their kind, are never validated, and need their configuration even for excluded functions. `@schema.output` allows no other decorator of its kind below it, unless it is made by `@resolve` (C60_violated_exclusive)."
  },
  {
   "property": "C61",
   "status": "partial",
   "theorems": [
    "Verif.C61_loader",
    "Verif.C61_saver_partial",
    "Verif.C61_register",
    "Verif.C61_loader_sound_partial",
    "Verif.C61_saver_sound_partial",
    "Verif.C61_cache_partial",
    "Verif.AdapterSample.C61_violated_any_saver",
    "Verif.AdapterSample.C61_violated_arguments",
    "Verif.AdapterSample.C61_violated_cache",
    "Verif.AdapterSample.C61_violated_cache_loader",
    "Verif.AdapterSample.C61_violated_annotated"
   ],
   "note": "Exact for classes (loaders; savers not registered for Any), sound for all annotations as far as C49 is. Violations: Any-savers are not last in line, arguments take no part in the choice, the cache takes the first registered adapters and loaders of a superclass, nested Annotated passes the decorator but fails when building."
  },
  {
   "property": "C62",
   "status": "partial",
   "theorems": [
    "Verif.C62_exact_partial",
    "Verif.C62_accepts_partial",
    "Verif.C62_rejects_partial",
    "Verif.C62_stops_partial",
    "Verif.C62_run_partial",
    "Verif.C62_transparent_partial",
    "Verif.CheckSample.C62_violated_tuple",
    "Verif.CheckSample.C62_violated_raises",
    "Verif.CheckSample.C62_violated_annotated",
    "Verif.CheckSample.C62_violated_masks",
    "Verif.CheckSample.C62_violated_parallel"
   ],
   "note": "Exact for Any, classes, unions, literals, lists, sets, variadic tuples and dictionaries nested in any way; sound for all annotations whose arguments are item or key/value types. Violations: fixed-length tuples are compared with their first type only, other subscripted generics and Annotated raise for good values, the exception of a failing function is masked, Parallelizable/Collect are rejected."
  },
  {
   "property": "C63",
   "status": "partial",
   "theorems": [
    "Verif.C63_callable",
    "Verif.C63_arguments_partial",
    "Verif.C63_accepts_partial",
    "Verif.DoesSample.C63_violated_twice",
    "Verif.DoesSample.C63_violated_chain",
    "Verif.DoesSample.C63_violated_dropped",
    "Verif.DoesSample.C63_violated_not_empty"
   ],
   "note": "Callability holds for all mappings; the arguments are right for all renamings (including permutations). Violations: a parameter under two names raises KeyError, chains of renamings pass stale or lose arguments depending on order, a parameter whose name is reused is dropped silently, functions returning a constant count as empty."
  },
  {
   "property": "C64",
   "status": "partial",
   "theorems": [
    "Verif.C64_execution_path_partial",
    "Verif.C64_violated_execution_path",
    "Verif.C64_execute_partial",
    "Verif.C64_returns_partial",
    "Verif.C64_raises_partial",
    "Verif.C64_raw_execute_partial",
    "Verif.C64_async_partial",
    "Verif.C64_task_partial",
    "Verif.C64_validators_partial",
    "Verif.C64_construct_partial",
    "Verif.C64_materialize_partial",
    "Verif.RunSample.C64_violated_interrupt",
    "Verif.RunSample.C64_violated_task_interrupt",
    "Verif.RunSample.C64_violated_pre_raises",
    "Verif.RunSample.C64_violated_post_raises",
    "Verif.RunSample.C64_violated_equal",
    "Verif.RunSample.C64_violated_async_build",
    "Verif.RunSample.C64_violated_materialize_unbound",
    "Verif.RunSample.C64_violated_materialize_validators",
    "Verif.RunSample.C64_violated_no_message"
   ],
   "note": "Holds for pairwise different adapters whose hooks return, for exceptions deriving from Exception. Violations: KeyboardInterrupt is reported as success by execute, materialize and tasks; a pre hook that raises leaves earlier adapters without an end; a post hook that raises hides the outcome; equal adapters are called once; async execute reports success before the builder fails; materialize raises UnboundLocalError instead of the real error, and reports the end of runs that never began; a rejection without message raises TypeError; overridden nodes are on execution_path."
  },
  {
   "property": "C65",
   "status": "partial",
   "theorems": [
    "Verif.C65_shelve_partial",
    "Verif.C65_disk_partial",
    "Verif.C65_shelve_repeat_partial",
    "Verif.C65_disk_repeat_partial",
    "Verif.C65_shelve_later_partial",
    "Verif.C65_disk_later_partial",
    "Verif.C65_evict_partial",
    "Verif.C65_evict_rest",
    "Verif.C65_disk_history",
    "Verif.LegacySample.C65_violated_evict",
    "Verif.LegacySample.C65_violated_evict_edit",
    "Verif.LegacySample.C65_violated_same_source",
    "Verif.LegacySample.C65_violated_optional",
    "Verif.LegacySample.C65_violated_two_graphs",
    "Verif.LegacySample.C65_violated_failed_once"
   ],
   "note": "Holds if the source of a function and the values of its arguments tell what it computes, parameters are required and (CacheAdapter) one graph per adapter; results None are recomputed. Violations: nodes generated from one function share results; optional arguments are mixed up; a CacheAdapter shared by two graphs stores a result under the other graph's source; DiskCacheAdapter never caches a call that raised once; evict_all_except evicts a kept version computed twice and raises ValueError for a version that was not run."
  },
  {
   "property": "C66",
   "status": "partial",
   "theorems": [
    "Verif.C66_rule_partial",
    "Verif.C66_same_partial",
    "Verif.C66_again_partial",
    "Verif.C66_edit_partial",
    "Verif.FileSample.C66_violated_inputs",
    "Verif.FileSample.C66_violated_part",
    "Verif.FileSample.C66_violated_uncached",
    "Verif.FileSample.C66_violated_leftover",
    "Verif.FileSample.C66_violated_broken"
   ],
   "note": "The rule holds if nothing is left over from a run whose results were not built, and files of different nodes differ. Violations: after raw_execute (or a failed run) the marks stay and cached functions are called needlessly; other inputs get the old values; a run that forces a node but does not ask for its dependents leaves their files stale; forcing a function without the tag has no effect on its dependents; a failed write leaves a broken file that is loaded later."
  },
  {
   "property": "C67",
   "status": "partial",
   "theorems": [
    "Verif.C67_table_partial",
    "Verif.C67_plain",
    "Verif.C67_no_dots",
    "Verif.C67_strict",
    "Verif.C67_numpy_partial",
    "Verif.ResultSample.C67_violated_overwrite",
    "Verif.ResultSample.C67_violated_scalars",
    "Verif.ResultSample.C67_violated_one_row"
   ],
   "note": "Tables: proved unless a DataFrame comes after a column of the same name (`sub.x` before `sub` with column `x`); then the earlier column is silently replaced (C67_violated_overwrite). Matrices: proved with at least one vector and, if there are numbers, vectors not of length 1; numbers alone give a matrix without entries, a number beside vectors of length 1 raises TypeError."
  },
  {
   "property": "C68",
   "status": "partial",
   "theorems": [
    "Verif.C68_value_partial",
    "Verif.C68_no_frame",
    "Verif.C68_missing_column",
    "Verif.C68_pruned",
    "Verif.C68_selection",
    "Verif.C68_accepted",
    "Verif.C68_arguments",
    "Verif.ColumnSample.C68_violated_select",
    "Verif.ColumnSample.C68_violated_rebuild"
   ],
   "note": "Proved for names that do not clash (no function, column or parameter called like the dataframe parameter or `_append`, no reference to the namespace from outside) and a selection without repetition. Violated: without `select`, the selection of the first driver is stored in the decorator and used for every later driver (C68_violated_select, C68_violated_rebuild)."
  },
  {
   "property": "C69",
   "status": "partial",
   "theorems": [
    "Verif.C69_accepted",
    "Verif.C69_verdict",
    "Verif.C69_no_raise",
    "Verif.C69_fail",
    "Verif.C69_warn_partial",
    "Verif.ValidatorSample.C69_violated_docs",
    "Verif.ValidatorSample.C69_violated_warn"
   ],
   "note": "Importance \"fail\" proved in full (C69_fail) for the ten default arguments; numbers are rational. Importance \"warn\" for values the validators can look at; violated otherwise: a function that returns `None` fails the run although the check has importance \"warn\" (C69_violated_warn). The documented example is refused (C69_violated_docs)."
  },
  {
   "property": "C70",
   "status": "partial",
   "theorems": [
    "Verif.C70_accepted_partial",
    "Verif.C70_loader",
    "Verif.C70_saver",
    "Verif.C70_tags",
    "Verif.C70_nodes",
    "Verif.C70_cache_partial",
    "Verif.DataSample.C70_violated_postponed",
    "Verif.DataSample.C70_violated_subdag"
   ],
   "note": "Values and tags proved in full. Acceptance proved for annotations that are types: under `from __future__ import annotations` both decorators refuse every function (C70_violated_postponed). Caching proved outside subdags: in a `@subdag` the tag names the function without the namespace, and the behaviour asked for is overwritten by the default (C70_violated_subdag)."
  },
  {
   "property": "C71",
   "status": "partial",
   "theorems": [
    "Verif.C71_frame_partial",
    "Verif.C71_column_partial",
    "Verif.C71_nodes",
    "Verif.ExtractSample.C71_violated_documented",
    "Verif.ExtractSample.C71_violated_polars",
    "Verif.ExtractSample.C71_violated_name"
   ],
   "note": "Proved for columns given by name and libraries that add columns in place; without fill value for all. Violated: with `fill_with`, a column given with documentation is not filled and a column labelled by the pair is added to the dataframe (C71_violated_documented); with polars the run raises AssertionError instead of filling (C71_violated_polars); a function called `column_to_extract` (C71_violated_name)."
  },
  {
   "property": "C72",
   "status": "partial",
   "theorems": [
    "Verif.C72_nodes",
    "Verif.C72_frame_partial",
    "Verif.C72_column_partial",
    "Verif.ExtractSample.C72_violated_reassign",
    "Verif.ExtractSample.C72_violated_does",
    "Verif.ExtractSample.C72_violated_misspelled"
   ],
   "note": "Proved for `reassign_columns=True` and functions that are called themselves. Violated: `reassign_columns=False` has no effect (C72_violated_reassign); with `@does` the replaced body is called (C72_violated_does); misspelled parameters are ignored (C72_violated_misspelled)."
  },
  {
   "property": "C73",
   "status": "partial",
   "theorems": [
    "Verif.C73_tags_partial",
    "Verif.C73_accepted_partial",
    "Verif.C73_ray_partial",
    "Verif.MetaSample.C73_violated_order",
    "Verif.MetaSample.C73_violated_outputs",
    "Verif.MetaSample.C73_violated_ray"
   ],
   "note": "Proved for stacks that do not set the tag `hamilton.non_final_node` themselves and for targets without repetitions; the options of Ray if no `@tag` bypasses the reserved namespaces. `@schema.output` above another of these decorators is refused (C73_violated_order), `@tag_outputs` accepts tags that `@tag` refuses (C73_violated_outputs), the node that calls a function with extracted columns does not get the options of `@ray_remote_options` (C73_violated_ray)."
  },
  {
   "property": "C74",
   "status": "partial",
   "theorems": [
    "Verif.C74_empty",
    "Verif.C74_entries_partial",
    "Verif.C74_warn_partial",
    "Verif.C74_outcomes",
    "Verif.C74_silent",
    "Verif.C74_rerun_partial",
    "Verif.C74_violated_unchanged_node",
    "Verif.SchemaSample.C74_violated_warn",
    "Verif.SchemaSample.C74_violated_nullable",
    "Verif.SchemaSample.C74_violated_field_metadata",
    "Verif.SchemaSample.C74_violated_subdag"
   ],
   "note": "Equality, outcomes for one node and silence are proved in full. The default settings raise AttributeError instead of warning if the data of a node changed and its function did not (C74_violated_unchanged_node, C74_violated_warn); so does a column that is no longer nullable (C74_violated_nullable). `check_field_metadata` raises KeyError if the function was edited (C74_violated_field_metadata). Nodes of a subdag share one file (C74_violated_subdag)."
  },
  {
   "property": "C75",
   "status": "partial",
   "theorems": [
    "Verif.C75_submitted_once",
    "Verif.C75_all_submitted",
    "Verif.C75_cluster",
    "Verif.C75_progress",
    "Verif.C75_same_result_partial",
    "Verif.C75_same_failure",
    "Verif.RemoteSample.C75_violated_reserved"
   ],
   "note": "Submission, soundness on the cluster, absence of deadlock and same failure are proved in full; the same result is proved for functions without parameters named `self`, `method_name`, `node` or `execute_lifecycle_for_node` (with Dask `dask_key_name`): these cannot be handed over (C75_violated_reserved). That Ray and Dask replace references by values and pass exceptions on is assumed."
  },
  {
   "property": "C76",
   "status": "partial",
   "theorems": [
    "Verif.Telemetry.C76_switch",
    "Verif.Telemetry.C76_opt_out",
    "Verif.Telemetry.C76_opt_out_env",
    "Verif.Telemetry.C76_config_kept",
    "Verif.Telemetry.C76_limit_partial",
    "Verif.Telemetry.C76_transparent_partial",
    "Verif.Telemetry.C76_anonymous_partial",
    "Verif.Telemetry.TelemetrySample.C76_violated_dataflow",
    "Verif.Telemetry.TelemetrySample.C76_violated_contrib",
    "Verif.Telemetry.TelemetrySample.C76_violated_limit",
    "Verif.Telemetry.TelemetrySample.C76_violated_config_lost",
    "Verif.Telemetry.TelemetrySample.C76_violated_folder"
   ],
   "note": "The switch and opting out are proved in full. Violated: functions of `hamilton.dataflows` and contributed dataflows raise when telemetry is off (C76_violated_dataflow, C76_violated_contrib) and do not count towards the limit (C76_violated_limit); an unreadable configuration file is overwritten (C76_violated_config_lost); frames of the user's files below a directory called `hamilton` are sent (C76_violated_folder). The partial theorems cover the rest."
  },
  {
   "property": "C77",
   "status": "partial",
   "theorems": [
    "Verif.C77_annotations",
    "Verif.C77_structure",
    "Verif.C77_program_partial",
    "Verif.C77_complete_partial",
    "Verif.FromFnSample.C77_violated_positional",
    "Verif.FromFnSample.C77_violated_kwargs",
    "Verif.FromFnSample.C77_violated_alias"
   ],
   "note": "Annotations and structure are proved in full (for imports that C45 allows). Values in both directions for functions whose parameters can be given by name; violated for positional-only parameters (TypeError, C77_violated_positional) and for **kwargs, which is treated as one parameter (C77_violated_kwargs). A second name for a function in its module prevents construction (C77_violated_alias)."
  },
  {
   "property": "C78",
   "status": "partial",
   "theorems": [
    "Verif.Visualize.C78_all_partial",
    "Verif.Visualize.C78_execution_partial",
    "Verif.Visualize.C78_execution_no_inputs_partial",
    "Verif.Visualize.C78_downstream_partial",
    "Verif.Visualize.C78_upstream_partial",
    "Verif.Visualize.C78_path_partial",
    "Verif.Visualize.C78_legend_partial",
    "Verif.Visualize.C78_label_partial",
    "Verif.Visualize.C78_violated_label",
    "Verif.Visualize.C78_violated_legend_name",
    "Verif.Visualize.C78_violated_requested_input",
    "Verif.Visualize.C78_violated_override_arrow",
    "Verif.Visualize.C78_violated_legend_config",
    "Verif.Visualize.C78_violated_legend_inputs"
   ],
   "note": "Proved for all five methods under the hypothesis that no node is called like an identifier of the drawing (table of inputs, legend entry, a name with a colon). Violated: a function called `output` (or like another legend entry) is moved into the legend; a requested input that nothing requested consumes is not drawn; the arrows into an overridden node are drawn if their source is selected; the legend lacks the configuration and lists hidden inputs; names are not escaped. custom_style_function, graphviz_kwargs and rendering are not modelled."
  },
  {
   "property": "C79",
   "status": "partial",
   "theorems": [
    "Verif.Spark.C79_rows_partial",
    "Verif.Spark.C79_complete_partial",
    "Verif.Spark.SparkSample.C79_violated_after_failure",
    "Verif.Spark.SparkSample.C79_violated_scalar_column",
    "Verif.Spark.SparkSample.C79_violated_two_tables",
    "Verif.Spark.SparkSample.C79_violated_driver_side",
    "Verif.Spark.SparkSample.C79_violated_replaced"
   ],
   "note": "Proved if the table is given for exactly those nodes that are named like its columns and no other table is given, and functions do not see the order of keyword arguments. Violated: after an execution that failed the next one works on the old table; a column that is named like a value computed on the driver (or a scalar input) is used in its place; of two tables only the first is used; outputs that do not depend on the table alone give an AttributeError; a function named like a column replaces it silently unless it is the first to run. The conversion of values by Spark and pandas batches are not modelled."
  },
  {
   "property": "C80",
   "status": "partial",
   "theorems": [
    "Verif.Spark.C80_value_partial",
    "Verif.Spark.C80_complete_partial",
    "Verif.Spark.C80_no_table",
    "Verif.Spark.SparkColumnsSample.C80_violated_shadowed",
    "Verif.Spark.SparkColumnsSample.C80_violated_column_dropped",
    "Verif.Spark.SparkColumnsSample.C80_violated_no_columns",
    "Verif.Spark.SparkColumnsSample.C80_violated_missing_column"
   ],
   "note": "Proved for functions that become UDFs, if names do not clash, no parameter outside `columns_to_pass` is called like a column, and (for `@with_columns`) no unselected function is called like a column. Violated: a column shadows a value of the surrounding dataflow with the same name; `@with_columns` drops an original column that is called like an unselected function; without `columns_to_pass` the dependencies are required as inputs, though the documentation says that all come from the dataframe; a name of `columns_to_pass` that is not a column is silently replaced by a default. Missing: functions that take dataframes (`@require_columns`), `pass_dataframe_as`, conversion of values by Spark."
  },
  {
   "property": "C81",
   "status": "partial",
   "theorems": [
    "Verif.DryRun.C81_requests_partial",
    "Verif.DryRun.C81_impossible",
    "Verif.DryRun.C81_validate_partial",
    "Verif.DryRun.C81_validate_materialization_partial",
    "Verif.DryRun.C81_has_cycles_partial",
    "Verif.DryRun.C81_export_partial",
    "Verif.DryRun.DryRunSample.C81_violated_function",
    "Verif.DryRun.DryRunSample.C81_violated_empty",
    "Verif.DryRun.DryRunSample.C81_violated_networkx",
    "Verif.DryRun.DryRunSample.C81_violated_nothing"
   ],
   "note": "Proved for the default executor without adapters, names other than the empty string, and loaders that leave config items alone. Violated: `validate_execution` and `export_execution` raise a TypeError for functions and `Variable`s that `execute` accepts; `execute` silently drops an empty string that `validate_execution` refuses; without networkx `has_cycles` is false whatever the graph; `validate_materialization` accepts an empty request that `materialize` refuses. networkx's `simple_cycles` is modelled by what it decides."
  },
  {
   "property": "C82",
   "status": "partial",
   "theorems": [
    "Verif.Kedro.C82_converts",
    "Verif.Kedro.C82_values_partial",
    "Verif.Kedro.C82_execute_partial",
    "Verif.Kedro.C82_complete_partial",
    "Verif.Kedro.Sample.C82_violated_reused",
    "Verif.Kedro.Sample.C82_violated_again",
    "Verif.Kedro.Sample.C82_violated_single",
    "Verif.Kedro.Sample.C82_violated_keys",
    "Verif.Kedro.Sample.C82_violated_length",
    "Verif.Kedro.Sample.C82_violated_parameter",
    "Verif.Kedro.Sample.C82_violated_twice",
    "Verif.Kedro.Sample.C82_violated_default",
    "Verif.Kedro.Sample.C82_violated_annotation"
   ],
   "note": "Proved for pipelines in which nothing collides (`Clean`). Violated: a function with several outputs used by two nodes; a second driver made of the same pipeline (the first replaced the annotation of the function); a list with a single output; dictionary outputs whose keys are not the dataset names (values are swapped or missing); tuples of the wrong length; a dataset and a parameter of one name; one dataset passed to two parameters; an unfed parameter named like a dataset; annotations with type arguments. Kedro is not in the repository: what a pipeline computes is the specification `KValue`. The completeness theorem is about the executor, without the validation of inputs."
  },
  {
   "property": "C83",
   "status": "partial",
   "theorems": [
    "Verif.ParamFamily.C83_group",
    "Verif.ParamFamily.C83_construct",
    "Verif.ParamFamily.C83_values_partial",
    "Verif.ParamFamily.C83_input_partial",
    "Verif.ParamFamily.C83_sources",
    "Verif.ParamFamily.C83_inject",
    "Verif.ParamFamily.C83_accept_partial",
    "Verif.ParamFamily.C83_nodes_partial",
    "Verif.ParamFamily.C83_value_partial",
    "Verif.ParamFamily.Sample.C83_violated_values",
    "Verif.ParamFamily.Sample.C83_violated_input",
    "Verif.ParamFamily.Sample.C83_violated_order",
    "Verif.ParamFamily.Sample.C83_violated_annotation",
    "Verif.ParamFamily.Sample.C83_violated_braces",
    "Verif.ParamFamily.Sample.C83_violated_empty"
   ],
   "note": "Proved for annotations in which None occurs at most as Optional[…], and for distinct outputs. Violated: two values or two inputs for one output of `@parameterize_values` and `@parametrized_input` (one is lost silently); Union[None, List[int]] is refused for a group; a parameter annotated None fails with an IndexError; braces in the docstring of the function fail with a ValueError; empty decorators are accepted and the function disappears. Values of sources that are optional inputs and not supplied: as for C39."
  },
  {
   "property": "C84",
   "status": "partial",
   "theorems": [
    "Verif.Tracing.C84_distributed_partial",
    "Verif.Tracing.C84_datadog_partial",
    "Verif.Tracing.C84_nested",
    "Verif.Tracing.C84_contexts_partial",
    "Verif.Tracing.C84_progress_partial",
    "Verif.Tracing.C84_display",
    "Verif.Tracing.Sample.C84_violated_links",
    "Verif.Tracing.Sample.C84_violated_threads",
    "Verif.Tracing.Sample.C84_violated_overrides",
    "Verif.Tracing.Sample.C84_violated_nothing",
    "Verif.Tracing.Sample.C84_violated_narrow"
   ],
   "note": "Proved in full for single-task causal links, contexts that are copied or single-threaded, and runs without overrides. Violated: nodes are not linked to what they use from other tasks; OpenTelemetry spans of tasks in pool threads are roots instead of being below their run; with overrides the bar ends below its total; with nothing to compute the bar raises ValueError; in a bar narrower than three, kept from an earlier run, names are shown wider."
  },
  {
   "property": "C85",
   "status": "partial",
   "theorems": [
    "Verif.Results.C85_memory",
    "Verif.Results.C85_file_partial",
    "Verif.Results.C85_agree_partial",
    "Verif.Results.C85_hits_partial",
    "Verif.Results.C85_format",
    "Verif.Results.C85_expired_partial",
    "Verif.Results.Sample.C85_violated_removed",
    "Verif.Results.Sample.C85_violated_dots",
    "Verif.Results.Sample.C85_violated_expired",
    "Verif.Results.Sample.C85_violated_memory"
   ],
   "note": "Proved for all histories with data versions that have no dots (as fingerprints are) and formats whose loader undoes the saver. Violated: when the file a saver wrote is gone, the lookup is a hit with None; data versions with dots share the file of a format; delete_expired raises in the default directory, where the database lies, and delete_all removes the database; with a format the in-memory store raises AttributeError; deleting what is absent raises in memory only."
  },
  {
   "property": "C86",
   "status": "partial",
   "theorems": [
    "Verif.StoreCopy.C86_load",
    "Verif.StoreCopy.C86_load_all_partial",
    "Verif.StoreCopy.C86_persist_partial",
    "Verif.StoreCopy.C86_persist_new_partial",
    "Verif.StoreCopy.C86_round_trip_partial",
    "Verif.StoreCopy.C86_results_persist_partial",
    "Verif.StoreCopy.C86_results_load_partial",
    "Verif.StoreCopy.C86_results_refused",
    "Verif.StoreCopy.Sample.C86_violated_deleted",
    "Verif.StoreCopy.Sample.C86_violated_ignored",
    "Verif.StoreCopy.Sample.C86_violated_other",
    "Verif.StoreCopy.Sample.C86_violated_twice",
    "Verif.StoreCopy.Sample.C86_violated_missing"
   ],
   "note": "Proved for stores that the adapter filled and whose runs can be listed. Violated: after a deletion, or with a node of behaviour ignore (key None), persist_to raises; a key the target has with another version keeps it; persisting twice doubles the runs; data versions without a result are loaded as None and then exist."
  },
  {
   "property": "C87",
   "status": "partial",
   "theorems": [
    "Verif.Options.C87_exact",
    "Verif.Options.C87_nothing_else",
    "Verif.Options.C87_excel",
    "Verif.Options.C87_reaches_partial",
    "Verif.Options.C87_function",
    "Verif.Options.C87_location",
    "Verif.Options.C87_unknown",
    "Verif.Options.C87_completes_partial",
    "Verif.Options.C87_violated_buffers",
    "Verif.Options.C87_pickle",
    "Verif.Options.C87_extra_parquet",
    "Verif.Options.C87_extra_dataset",
    "Verif.Options.C87_extra_load",
    "Verif.Options.C87_violated_dropped",
    "Verif.Options.Sample.C87_violated_none",
    "Verif.Options.Sample.C87_violated_version",
    "Verif.Options.Sample.C87_violated_compression",
    "Verif.Options.Sample.C87_violated_copies",
    "Verif.Options.Sample.C87_violated_na_values"
   ],
   "note": "C87_exact gives, for every adapter and option, exactly when it is passed; the three adapters with a dict of further arguments and the pickle reader have theorems of their own. Violated: twelve options are never passed; None is dropped; pandas versions are compared as strings; compression=None drops the other options of the polars Parquet writer; a buffer as location raises after the data was read or written; adapters that copy their options refuse open files and turn dataclass instances into dicts; na_values of the Excel reader is refused."
  },
  {
   "property": "C88",
   "status": "partial",
   "theorems": [
    "Verif.Recorders.C88_mlflow_partial",
    "Verif.Recorders.C88_experiment_partial",
    "Verif.Recorders.C88_lineage_partial",
    "Verif.Recorders.C88_lineage_separate",
    "Verif.Recorders.C88_slack",
    "Verif.Recorders.Sample.C88_violated_no_inputs",
    "Verif.Recorders.Sample.C88_violated_masked",
    "Verif.Recorders.Sample.C88_violated_failed_value",
    "Verif.Recorders.Sample.C88_violated_two_sources",
    "Verif.Recorders.Sample.C88_violated_twice",
    "Verif.Recorders.Sample.C88_violated_run_id",
    "Verif.Recorders.Sample.C88_violated_overlap",
    "Verif.Recorders.Sample.C88_violated_second",
    "Verif.Recorders.Sample.C88_violated_saver_fails",
    "Verif.Recorders.Sample.C88_violated_no_path",
    "Verif.Recorders.Sample.C88_violated_experiment_no_inputs",
    "Verif.Recorders.Sample.C88_violated_no_frame",
    "Verif.Recorders.Sample.C88_violated_format"
   ],
   "note": "Proved for the executions each recorder can record (Trackable, Experimental, framed and visible metadata); Slack and the separation of overlapping OpenLineage runs hold without conditions. Violated: MLflow without inputs fails and leaves its run active, failing final variables mask the exception or log None, savers with several dependencies or executed twice, run_id, overlapping executions; experiments: second execution, failing savers, savers without path, no inputs; OpenLineage: data that is no frame, type of files of @dataloader."
  },
  {
   "property": "C89",
   "status": "partial",
   "theorems": [
    "Verif.TaskCache.C89_transparent_partial",
    "Verif.TaskCache.C89_again",
    "Verif.TaskCache.C89_threads_partial",
    "Verif.TaskCache.Sample.C89_violated_by_level",
    "Verif.TaskCache.Sample.C89_violated_order",
    "Verif.TaskCache.Sample.C89_violated_threads"
   ],
   "note": "Proved for schedules in which arguments come from the user, the configuration, the same task, a task of their own, a collecting node or a parallelizable node, and for functions that do not depend on the order of what they collect. Violated: nodes grouped by level (TypeError), another order of collected items, two threads that record the first versions of a node of a block. C89_again: for values with fingerprints and nothing disabled. Assumed: fingerprints, uuids and code versions without collisions."
  },
  {
   "property": "C90",
   "status": "partial",
   "theorems": [
    "Verif.TaskCache.Log.C90_log_partial",
    "Verif.TaskCache.Log.C90_view_partial",
    "Verif.TaskCache.Log.C90_view_tasks",
    "Verif.TaskCache.Log.C90_apart",
    "Verif.TaskCache.Log.Sample.C90_violated_override",
    "Verif.TaskCache.Log.Sample.C90_violated_missing_run"
   ],
   "note": "Proved for the runs of C89 (`Run.Valid`, `OrderFree`). Violated: a node given as input and as override is drawn as an input only; logs() at level info has no entry for a run without values."
  },
  {
   "property": "C91",
   "status": "partial",
   "theorems": [
    "Verif.TaskCache.Read.C91_read_partial",
    "Verif.TaskCache.Read.C91_version_partial",
    "Verif.TaskCache.Read.Sample.C91_violated_expand"
   ],
   "note": "Proved for the runs of C89 (`Run.Valid`, `OrderFree`), without parallelizable nodes, for which get_data_version has no version (violated)."
  },
  {
   "property": "C92",
   "status": "partial",
   "theorems": [
    "Verif.Deprecation.C92_function_partial",
    "Verif.Deprecation.C92_one_effect",
    "Verif.Deprecation.C92_declaration",
    "Verif.Deprecation.C92_upgrade",
    "Verif.Deprecation.C92_class_partial",
    "Verif.Deprecation.C92_one_call",
    "Verif.Deprecation.C92_announced_partial",
    "Verif.Deprecation.C92_violated_dynamic_transform",
    "Verif.Deprecation.C92_violated_pipe",
    "Verif.Deprecation.Sample.C92_violated_starting",
    "Verif.Deprecation.Sample.C92_violated_twice"
   ],
   "note": "Proved with 'after the version' in place of 'from the version on'. Violated: in the two announced versions themselves nothing changes; dynamic_transform never warns and pipe never fails, whatever version is installed; a class with two notices recurses without end."
  },
  {
   "property": "C93",
   "status": "partial",
   "theorems": [
    "Verif.Autoload.C93_other_options",
    "Verif.Autoload.C93_config_off",
    "Verif.Autoload.C93_off",
    "Verif.Autoload.C93_config_on",
    "Verif.Autoload.C93_column_type_partial",
    "Verif.Autoload.C93_dataframe_types",
    "Verif.Autoload.Sample.C93_violated_enable",
    "Verif.Autoload.Sample.C93_violated_running",
    "Verif.Autoload.Sample.C93_violated_broken",
    "Verif.Autoload.Sample.C93_violated_spark"
   ],
   "note": "The switches over several processes are proved in full for new processes. Violated: enable_autoload raises KeyError where nothing is switched off; config_enable_autoload does not switch on in the running process, and switches off what was switched on there; an extension that raises something else than an import error makes the import of the driver fail; extensions without column type (spark) give KeyError."
  },
  {
   "property": "C94",
   "status": "partial",
   "theorems": [
    "Verif.TempModule.C94_accepted",
    "Verif.TempModule.C94_functions_partial",
    "Verif.TempModule.C94_untouched",
    "Verif.TempModule.C94_independent",
    "Verif.TempModule.C94_source_partial",
    "Verif.TempModule.Sample.C94_violated_keyword_only",
    "Verif.TempModule.Sample.C94_violated_doc",
    "Verif.TempModule.Sample.C94_violated_source",
    "Verif.TempModule.Sample.C94_violated_imported"
   ],
   "note": "Acceptance, untouched originals and independence are proved in full. Violated: the copies lose the defaults of keyword-only parameters and docstrings that were set after the definition; module_from_source replaces a module of the same name, and one whose source raises stays registered; functions imported from a module whose name contains the name of the new module are taken for its own. Proved for calls that do not rely on keyword-only defaults, and for sources that run through."
  },
  {
   "property": "C95",
   "status": "partial",
   "theorems": [
    "Verif.Pickling.C95_cache_partial",
    "Verif.Pickling.C95_driver_partial",
    "Verif.Pickling.C95_requests",
    "Verif.Pickling.C95_refused",
    "Verif.Pickling.Sample.C95_violated_relative",
    "Verif.Pickling.Sample.C95_violated_memory",
    "Verif.Pickling.Sample.C95_violated_dropped",
    "Verif.Pickling.Sample.C95_violated_temporary"
   ],
   "note": "Proved for caches on disk whose path is absolute or whose processes work in the same directory, and for drivers whose modules can be found under their own names. Violated: with the default relative path a process elsewhere shares the metadata but not the results; caches in memory cannot be pickled; modules that cannot be imported are dropped, so that their functions can no longer be requested; drivers made from temporary modules or __main__ cannot be pickled. Pickling of the attribute values themselves is assumed to work."
  }
 ]
}