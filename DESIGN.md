# Design of the formal model

Subject: DAGWorks-Inc/hamilton, Python source in `/repo` (read as text, never run).
Model: Lean 4.33.0 under `lean/Verif/`, entry point `lean/Verif.lean`. Build with `lake build` in `lean/`.

Contents: 1 trusted base · 2 what is modelled · 3 the properties · 4 disagreements between code and properties ·
5 conventions · 6 axioms of every theorem · 7 testing the theorems with wrong programs.

## 1. Trusted base

* Lean's kernel. Every property theorem depends at most on `propext`, `Classical.choice` and `Quot.sound`
  (section 6). No own axioms, no `sorry`/`admit`, no `native_decide`, no `bv_decide`. No Mathlib import is needed.
* The hand translation from Python to Lean. Every model definition cites the file and lines it mirrors, and says what
  it simplifies.
* General modelling decisions:
  * A Python `dict` is an association list with distinct keys in insertion order (`Verif.Dict`): assignment overwrites in
    place or appends, `del` removes, `in`/`[]` look up by equality of names. A `set` that is only tested for membership is
    a list used only through membership; where its iteration order matters, the order is a universally quantified parameter.
  * Names are strings. Node values are an arbitrary type `V`, node types an arbitrary type `T`. Node functions are arbitrary
    *pure* functions `kwargs → Except error V` (a function that raises is an `error`). Functions that mutate
    their arguments, or whose result changes between calls, are outside of the model (except under the cache, where code
    changes between runs are modelled explicitly).
  * Python exceptions are values. Only the kind and the information a caller can act on is kept; not
    message text, logging, telemetry.
  * Endless recursion (RecursionError) is the outcome `diverge` of a fuelled function. It is returned only if the request
    runs into a circular dependency (C54); theorems about execution do not assume acyclic graphs. Python's recursion limit
    (a chain of about 1000 functions, each using the next) is not modelled: there the code raises RecursionError
    although the model returns the value.
  * Concurrency: executors and the event loop are adversaries. A schedule is an arbitrary list of
    choices (which task completes, with what answer, in which polling round); theorems quantify over all
    schedules. The loop of `run_graph_to_completion` is single threaded in the code, hence its steps are atomic. asyncio
    switches tasks only at `await`, hence the steps between two awaits are atomic.
  * Digests (md5, sha224, sha256), compression and pickling are parameters of the model; where injectivity or a
    round trip is needed it is an explicit hypothesis, usually only on the messages that occur.

## 2. Parts modelled and not modelled

| code | modelled in | not modelled |
|---|---|---|
| `hamilton/execution/graph_functions.py` | `Model/Exec` (`execute_subdag`), `Model/Lifecycle`, `Model/Hooks` (`execute_lifecycle_for_node`), `Model/Query` (`nodes_between`, `node_is_required_by_anything`), `Model/Topo`, `Model/Driver` (`combine_config_and_inputs`) | — |
| `hamilton/graph.py` | `Model/Build` (`add_dependency`, `update_dependencies`, `create_function_graph`, `with_nodes`), `Model/Query` (traversals), `Model/Driver` (`FunctionGraph.execute`), `Model/Visualize` (`create_graphviz_graph`, `display`, `display_all`) | colours, `custom_style_function`, `graphviz_kwargs`, rendering |
| `hamilton/graph_utils.py` | `Model/Config` | — |
| `hamilton/node.py` | `Model/Node`, `Model/FromFn` (`from_fn`, calls of Python functions), `Model/Tags`, `Model/Subdag`, `Model/Targets` (parts of `Node` used there) | docstrings, originating functions |
| `hamilton/driver.py` | `Model/Driver` (execute, validation, default executor), `Model/Sched`/`Model/Grouping` (task-based executor), `Model/Query`, `Model/Tags`, `Model/Builder`, `Model/Materialize` (`materialize`), `Model/Visualize` (the drawing methods), `Model/Telemetry` | materializer drawings, deprecated entry points, `export_execution` |
| `hamilton/execution/state.py`, `grouping.py`, `executors.py` | `Model/Sched`, `Model/Grouping`, `Model/Pool` | pickling of tasks; threads and processes are the schedule |
| `hamilton/caching/adapter.py`, `fingerprinting.py`, `cache_key.py`, `stores/*` | `Model/Caching`, `Model/Behaviors`, `Model/Fingerprint`, `Model/CacheKey`, `Model/MetadataStore` | file formats, pandas/numpy fingerprints, log views |
| `hamilton/lifecycle/base.py`, `api.py`, `default.py` | `Model/Hooks`, `Model/RunHooks`, `Model/ExecutionPath`, `Model/Graceful`, `Model/CheckInstance` (type checker), `Model/LegacyCache` (`CacheAdapter`) | asynchronous hooks run concurrently, the other stock adapters |
| `hamilton/base.py` | `Model/ResultBuild` (the builders) | pandas and numpy themselves, the adapters |
| `hamilton/plugins/h_pandas.py`, `h_polars.py`, `hamilton/function_modifiers/recursive.py` | `Model/WithColumns` (`@with_columns`) | the dataframe libraries, async columns, `h_spark` |
| `hamilton/data_quality/default_validators.py`, `base.py` | `Model/Validators` (arguments of `@check_output`) | pandera validators, dask, messages and diagnostics, float rounding |
| `hamilton/function_modifiers/expanders.py` (columns) | `Model/ExtractColumns` (`extract_columns`, `parameterize_extract_columns`, `fill_with_scalar`) | asynchronous functions, documentation, changes in place of shared dataframes |
| `hamilton/function_modifiers/adapters.py` (`dataloader`, `datasaver`) | `Model/DataFns` | how types are resolved (`get_type_hints`) |
| `hamilton/plugins/h_schema.py` | `Model/Schema` | dataframes to schemas (`_get_arrow_schema`), files and JSON |
| `hamilton/plugins/h_ray.py`, `h_dask.py` (graph adapters) | `Model/Remote` (options of Ray calls: `Model/Metadata`) | Ray and Dask themselves, task executors, `DaskDataFrameResult`, hooks on workers |
| `hamilton/driver.py` (dry runs), `hamilton/common/__init__.py`, `hamilton/graph_types.py` (`as_dict`) | `Model/DryRun` | networkx itself, the other fields of exported nodes, telemetry |
| `hamilton/plugins/h_kedro.py` | `Model/Kedro` | Kedro itself, adapters of the builder |
| `hamilton/function_modifiers/expanders.py` (construction and validation of the `parameterize` family), `dependencies.py` | `Model/ParamFamily` | parsing of templates, annotations beyond classes, generic aliases and unions |
| `hamilton/plugins/h_ddog.py`, `h_opentelemetry.py`, `h_tqdm.py` | `Model/Tracing` | tags and attributes of spans, what the tracing libraries do with them |
| `hamilton/caching/stores/file.py`, `base.py`, rest of `memory.py` | `Model/ResultStore`, `Model/StoreCopy` | `pickle`, savers and loaders themselves, subdirectories, expiry times |
| data adapters of `hamilton/plugins/*_extensions.py` (pandas, polars, Hugging Face, LightGBM, matplotlib, numpy, plotly, scikit-learn, dlt saver), `hamilton/io/utils.py` (whether it raises) | `Model/AdapterOptions`, `Model/AdapterTablesPandas`, `Model/AdapterTablesPolars`, `Model/AdapterTablesOther` | the libraries, the metadata returned, the adapters for Spark, Kedro, MLflow, XGBoost, YAML |
| `hamilton/plugins/h_mlflow.py`, `h_experiments/hook.py`, `h_experiments/cache.py`, `h_openlineage.py`, `h_slack.py` | `Model/Recorders` | the servers and clients, MLflow experiments, the web page of experiments |
| `hamilton/caching/adapter.py` with task identifiers | `Model/TaskCache` | loaders, savers and formats, logging, adapters copied to processes |
| `hamilton/caching/adapter.py`, logging | `Model/CacheLog` | messages, values and timestamps of events, the log file, drawing |
| `hamilton/dev_utils/deprecation.py` and its uses | `Model/Deprecation` | wording of messages, multiple inheritance |
| `hamilton/registry.py` without adapters | `Model/Autoload` | comments in the configuration file, partial imports |
| `hamilton/ad_hoc_utils.py` | `Model/TempModule` | `create_module`, `linecache`, starred and positional-only parameters |
| `__getstate__`, `__setstate__` of drivers and caches | `Model/Pickling` | pickling of the values themselves |
| `hamilton/plugins/h_spark.py` (UDF adapter, `@with_columns`, `@select`) | `Model/Spark`, `Model/SparkColumns` | Spark itself, conversion of values, `KoalasDataframeGraphAdapter`, `@require_columns`, `pass_dataframe_as` |
| `hamilton/telemetry.py` and its callers | `Model/Telemetry` | properties that are equal in all events of a process, delivery over the network, interpolation of `%` in the configuration |
| `hamilton/experimental/h_cache.py` | `Model/FileCache` | the readers and writers for the formats |
| `hamilton/plugins/h_diskcache.py` | `Model/LegacyCache` | the wrapper for drivers, sizes, `diskcache` itself |
| `hamilton/graph_types.py`, `hamilton/cli/logic.py` | `Model/Versions` (node and dataflow versions, `diff_versions`) | git access, printing, visualisation |
| `hamilton/function_modifiers/*` | `Model/Config` (`@config`, `resolve_config`), `Model/Decorators` (`@extract_fields`, `@check_output`, `@parameterize`/`@inject`), `Model/Subdag`, `Model/Targets` (targets, pruning), `Model/Pipe` (`@pipe_input`, `@pipe_output`, `@mutate`), `Model/Stack` (lifecycle of stacked decorators, `@resolve`), `Model/Does` (`@does`), `Model/Materialize` (`load_from`/`save_to` factories) | `@model`, `@with_columns` bodies, pandas/polars specific ones |
| `hamilton/io/materialization.py`, `io/data_adapters.py`, `registry.py` | `Model/Materialize`, `Model/Adapters` (registration and choice of adapters) | single adapters, extension loading |
| `hamilton/htypes.py` | `Model/Types`, `Model/CheckInstance` (`check_instance`) | column types |
| `hamilton/async_driver.py` | `Model/Async` | async lifecycle hooks, cancellation, `raw_execute` telemetry |
| CLI, plugins, dataflows, contrib, UI, SDK, experimental | not modelled | no semantics relevant to the properties |

## 3. The properties

For each property: what is modelled, how it is proved, the theorems (file under `lean/Verif/Props`), and the status.

### C01 Executed values are the functional composition of the DAG — proved

*Modelled:* `Driver.execute` down to the recursive `dfs_traverse` of `execute_subdag` with its memo, its check for required parameters and the pruning of results nobody needs any more.
*Proof:* The specification `Den` (Spec/Denotation) is an inductive relation giving each name its functional value; invariant: every memo entry satisfies `Den`; induction on fuel; `Den` is deterministic.

* `C01_execute_sound` (Execution.lean): C01. If `Driver.execute` returns, exactly the requested names are returned, and each requested node has the value of the functional composition; a requested input node for which nothing was supplied yields `None`, and a requested name that is not a node yields the input of that name.

### C02 A node function runs at most once per execute call — proved

*Modelled:* Same model; it records the trace of function calls, also for runs that raise.
*Proof:* Invariant: a node finished but pruned has only finished consumers and is not requested, hence is never traversed again; nodes in progress are not finished (acyclic).

* `C02_at_most_once` (Execution.lean): C02. No node function is invoked twice in one execution, whether it ends normally or with an exception.

### C03 Only needed functions run — proved

*Modelled:* Same trace.
*Proof:* Trace elements satisfy the inductive relation `Needed` (reachability cut at overrides).

* `C03_only_needed` (Execution.lean): C03. Every invoked function belongs to a needed node, is not overridden, and is not an input.

### C04 Execution is complete: if every needed input is there and no function raises, the run returns all requested values — proved

*Modelled:* Same model.
*Proof:* A rank function for acyclic graphs bounds the fuel; if `Den` gives every requested node a value the run succeeds with it. Order independence and monotonicity are corollaries via determinism of `Den`.

* `C04_execute_complete` (Execution.lean): C04. If every requested node has a value by functional composition (or is an input that is not supplied), the execution returns, with exactly these values.
* `C04_request_order_independent` (Execution.lean): C04 (order independence). Two successful executions with the same inputs and overrides agree on every name that both request, whatever the order and the other requested names.
* `C04_subset_succeeds` (Execution.lean): C04 (subset). If a request succeeds, so does every request for a part of it in any order, with the same values.

### C05 Overriding a node is the same as replacing its function by a constant — proved

*Modelled:* Same model, plus graph construction with one function replaced.
*Proof:* `Den` of the two graphs is shown equivalent, then C01/C04 in both directions.

* `C05_override_eq_constant` (Execution.lean): C05. Executing with `n` overridden by `v` gives the same outcome (same returned dict, and success in the same cases) as executing, without that override, the graph built from the same functions with `n` redefined as a parameterless function returning `v`. The requested names must be nodes of the rebuilt graph (inputs used only by `n` are gone there).

### C06 If input validation passes, no missing-input failure occurs during execution — proved

*Modelled:* `validate_inputs` (needed inputs from `get_upstream_nodes`) and `execute`.
*Proof:* The traversal of the validation covers every input the execution asks for.

* `C06_validated_never_missing` (Execution.lean): C06. If pre-execution validation passes, the run never fails with a missing input.

### C07 Validation never rejects an execution that would succeed — partial

*Modelled:* Same.
*Proof:* Converse inclusion, cut at overridden consumers; negation by an explicit graph.

* `C07_rejection_justified_partial` (Execution.lean): C07 (partial). Validation reports a missing input `m` only if the execution cannot succeed, provided that neither `m` nor a node consuming `m` is overridden. Missing for the full property: see `C07_violated`.
* `C07_violated` (Execution.lean): C07 is violated: supplying the required input `x` through `overrides` is rejected by validation although the execution itself succeeds with the right value.

*Status:* Violated by the code (C07_violated: a required input supplied only through overrides is rejected by validation). The partial theorem covers every case in which neither the reported input nor one of its consumers is overridden.

### C08 Optional inputs that are not supplied are omitted, supplied ones are passed — proved

*Modelled:* The recorded arguments of each call in the trace.
*Proof:* Invariant on kwargs built by `kwargsOf`.

* `C08_arguments` (Execution.lean): C08. In every function call, each parameter is either passed with its functional value, or is omitted, and then it is optional and refers to an input that was not supplied. Nothing else is passed.

### C09 Lineage queries are exact reachability — proved

*Modelled:* `directional_dfs_traverse` with its explicit recursion and `get_upstream_nodes`/`get_downstream_nodes`.
*Proof:* Visited set = reflexive transitive closure (`Reach`), cyclic graphs included; termination by the number of unvisited nodes.

* `C09_downstream` (Queries.lean): C09 (downstream). `what_is_downstream_of(names)` returns, without repetition, exactly the nodes from which some given name is reachable along dependencies; if some names are unknown it fails and the error lists all of them.
* `C09_upstream` (Queries.lean): C09 (upstream). `what_is_upstream_of(names)` returns, without repetition, exactly the nodes reachable from a given name along dependencies; if some names are unknown it fails and the error lists all of them.

### C10 Path queries return exactly the nodes on some path — proved

*Modelled:* `FunctionGraph.nodes_between`, `graph_functions.nodes_between` (memoised search).
*Proof:* Equality with the inductive `OnPath`/`Between`; invariant of the memo: it is the true answer for every finished node.

* `C10_path_between` (Queries.lean): C10 (path). `what_is_the_path_between(a, b)` returns exactly the nodes lying on a dependency path between `a` and `b`.
* `C10_path_unknown` (Queries.lean): A name that is no node is rejected, the upstream end first.
* `C10_nodes_between` (Queries.lean): C10 (block search). Searching back from node `e` for the node named `st` finds it exactly if `e` depends on it transitively, and then returns exactly the nodes strictly between the two.

### C11 The set of nodes planned for execution is exactly what the execution touches — partial

*Modelled:* `get_upstream_nodes` with `runtime_inputs`/`runtime_overrides`.
*Proof:* Exact characterisation by `Planned`, then inclusion of trace and memo; negation for optional inputs given as overrides.

* `C11_plan_exact_partial` (Execution.lean): C11 (partial). With inputs given, the planned set is exactly the set of nodes reachable from the requested nodes along edges that matter, its user nodes are exactly its input nodes; every function invoked by the execution, successful or not, is planned, and every name for which a successful execution stores a value is planned or is an input node supplied only through `overrides` (the exception is real: `C11_violated`).
* `C11_violated` (Execution.lean): C11 is violated for an optional input supplied only through `overrides`: it is used by the run but not planned.

*Status:* The plan is characterised exactly and contains every invoked function. Violated only for optional inputs supplied through overrides (C11_violated).

### C12 Topological sorting is correct — proved

*Modelled:* `topologically_sort_nodes` (Kahn) and `get_node_levels`.
*Proof:* Invariants on in-degrees; dropped nodes have dropped dependencies; acyclicity gives a permutation; levels = longest chains by induction along the sorted list.

* `C12_sorted` (Topo.lean): C12 (order). Sorting always terminates, returns each given node at most once and nothing else, and every node comes after all of its dependencies that are in the list. What is left out are only nodes having a dependency that is left out too.
* `C12_acyclic_complete` (Topo.lean): C12 (completeness). If the dependencies among the nodes are acyclic, no node is dropped: the result is a permutation.
* `C12_levels` (Topo.lean): C12 (levels). On a topologically sorted list, the level of a node is the length of the longest dependency chain inside the list that starts at it.

### C13 Graph construction wires dependencies both ways and completely — proved

*Modelled:* `create_function_graph`: collection, config nodes, `update_dependencies`/`add_dependency` mutating nodes in a loop.
*Proof:* Invariant of the wiring loop giving the `WellFormed` structure used by all other proofs.

* `C13_wiring` (Construction.lean): C13. In every graph built from functions: a node lists as dependencies exactly its parameter names, in order and without repetition, each of them is a node, and consumers are exactly the nodes having the name as a parameter.
* `C13_nodes` (Construction.lean): C13 (nodes). The nodes of the graph are exactly: the function names not shadowed by config, the config names, and the parameter names of the remaining functions.

### C14 Name resolution between modules and config — proved

*Modelled:* Same, with `allow_module_overrides`.
*Proof:* Fold invariants (last definition wins; first duplicate fails).

* `C14_resolution` (Construction.lean): C14 (resolution). A name bound in config is an input node whatever the modules define; otherwise the definition coming last in module order is the one in the graph, with its parameters, function and type.
* `C14_duplicate_rejected` (Construction.lean): C14 (duplicates). Without `allow_module_overrides`, construction fails with a duplicate-name error exactly when two functions that config does not shadow share a name; with it, never.

### C15 Config and runtime inputs never silently shadow each other — proved

*Modelled:* `combine_config_and_inputs`.
*Proof:* Decision logic on dictionaries.

* `C15_config_input_clash` (Construction.lean): C15. A runtime input whose name is already bound in config makes the execution fail: it is never silently preferred nor dropped. If the names are disjoint both are visible.

### C16 A task starts only after everything it depends on has finished successfully — partial

*Modelled:* `ExecutionState` (realize, release, bind), `run_graph_to_completion`, result cache; schedules are arbitrary lists of answers.
*Proof:* Dependencies: invariant over all runs of arbitrary plans (Proofs/AnyPlan). Values: invariant over all runs (Proofs/Sched1–11): statuses, queue, futures and cache agree with the history. Negation by a call with a node named like a cache key.

* `C16_violated_values` (TaskLimits.lean): **C16, violated (values).** The task `w` depends on the task `expand-e:0:b`, which reported 100, but is given 2.
* `C16_dependencies_done` (Tasks.lean): **C16, order.** Whatever the plan and the schedule, also when the run raises: when a task is handed to an executor, everything it depends on has been reported successful before. (No task may be called `.`: the scheduler looks up the characters of a dependency inside of a block.)
* `C16_values_legitimate_partial` (Tasks.lean): **C16, values.** The values bound to a task when it is submitted are legitimate. Missing: plans that are not `PlanOk` or whose names are not `KeysOk` (see `C16_violated_values`).
* `C16_results_passed_partial` (Tasks.lean): **C16, values are passed on.** If a node of the task takes `k` from outside of the task and a task it depends on reported a result for `k`, then a value is bound to `k`; for a task that is neither repeated nor a collector it is that result. Missing: as before.

*Status:* C16_dependencies_done holds for every plan. Values: proved for plans whose blocks each have one collector and whose block names contain no ':'; C16_violated_values: a node named like a cache key is given another node's value.

### C17 A task is submitted exactly once — partial

*Modelled:* Same.
*Proof:* History invariant (submitted ⊆ realised, `Nodup`); at the end all tasks are successful. Negation by an overridden collector.

* `C17_violated` (TaskLimits.lean): **C17, violated for an overridden collector.** In `execute(["b", "c"], overrides={"c": ...})` the collector depends on nothing any more, is realized at the start and again when the expander is done: it is submitted twice.
* `C17_submitted_at_most_once_partial` (Tasks.lean): **C17, at most once.** No task is submitted twice, whatever the schedule, also when the run raises. Missing: plans that are not `PlanOk` (see `C17_violated`).
* `C17_submitted_exactly_once_partial` (Tasks.lean): **C17, exactly once.** When the run ends successfully, the tasks submitted, and the tasks reported successful, are exactly the expected ones: every task that is not repeated, and the copies of the repeated tasks for every element. Missing: plans that are not `PlanLive`.

*Status:* Proved for plans in which every task depends on tasks of the plan and each expander has one collector (the plans of sealed blocks and of all plain graphs); C17_violated: an overridden collector is submitted twice.

### C18 Task-based execution cannot get stuck — partial

*Modelled:* Same; fairness means that every submitted task is eventually reported.
*Proof:* Never stuck: some task is queued or running unless finished; termination by a measure on unfinished tasks; negations (empty plan, block node used outside) by showing that the loop stays in one state.

* `C18_violated_block_use` (TaskLimits.lean): **C18, violated for a block node used outside of its block.** The call `execute(["d", "q"])` never ends although every task completes as soon as it is submitted.
* `C18_never_stuck_partial` (Tasks.lean): **C18, progress.** As long as the run is not over there is a task queued or in an executor. Missing: plans that are not `PlanLive` (see `C18_violated_empty`, `C18_violated_block_use`).
* `C18_terminates_partial` (Tasks.lean): **C18, termination.** Under a fair schedule the run ends after finitely many rounds. Missing: as before.
* `C18_violated_empty` (Tasks.lean): **C18, violated for nothing to do.** With no tasks (an `execute` call that requests nothing) the run never ends, whatever the schedule.

*Status:* Proved for every plan with at least one task in which block tasks are used only through their collector; violated for a call that requests nothing (C18_violated_empty) and for a block node used outside of its block (C18_violated_block_use).

### C19 Task-based execution returns the same values as in-memory execution — partial

*Modelled:* Task-based executor for plain groupings of any strategy respecting dependencies vs `Driver.execute`.
*Proof:* Each task's inner execution is C01/C04 on a subgraph with overrides; composed along the submission order. Negation by the two node witness of C21.

* `C19_violated` (Overrides.lean): **C19, violated when an input and an override of one name differ.** The call of `C21_violated`, which has no `Parallelizable` node among what it computes, on the graph of the first function only.
* `C19_same_values_partial` (TaskEquiv.lean): **C19, soundness.** Whatever the (dependency respecting) grouping, the executors and the completion order: if a task-based call returns, then in-memory execution of the same call returns too, the same names are returned, with the same values. Missing: calls in which an input (or config value) and an override of one name differ (`C19_violated`), calls that request an input that no function uses.
* `C19_same_success_partial` (TaskEquiv.lean): **C19, completeness.** If in-memory execution of a call returns a value for every requested node, then task-based execution of the call returns too, under every schedule of executors that complete what they are given and neither break nor hide failures; with the same values. Missing: as before, and calls that request nothing (`C18_violated_empty`).

*Status:* Proved for every strategy that partitions the nodes (all four of the library, C50) and every schedule; C19_violated: an override that is also given as an input with another value.

### C20 Collect sees one result per expanded element, in the order they were produced — partial

*Modelled:* `realize_parameterized_group`, `bind_task` for collectors.
*Proof:* Invariant: branch results are stored under `(spawning task, group id)`; list built in id order whatever the completion order. Negations by two calls (collector of the expander itself, two collectors).

* `C20_violated` (TaskLimits.lean): **C20, violated for a collector of the expander itself.** `e` yields 0 and 1; the `Collect` parameter receives `[[0, 1]]`.
* `C20_violated_two` (TaskLimits.lean): **C20, violated for two collectors of one expander.** The call raises KeyError: the collector `c` is never run.
* `C20_collect_in_order_partial` (Tasks.lean): **C20.** When a collector is submitted, its `Collect` parameter `arg` (a node of the repeated task `m`) is bound to the list with, for every element in the order yielded, the result of its branch. Missing: a parameter that collects the expander itself (`C20_violated`), plans that are not `PlanOk`.

*Status:* Proved for blocks with at least one node and one collector; C20_violated: a collector directly on the expander gets a nested list; C20_violated_two: with two collectors of one expander one is never run.

### C21 Overrides win over inputs, in every execution mode — partial

*Modelled:* In-memory: `execute`. Task-based: `prehydrated = {**overrides, **inputs}`.
*Proof:* Value determinism by `Den`; negation by a two node witness.

* `C21_overrides_win_partial` (Overrides.lean): **C21, in-memory execution.** Two calls whose inputs differ only in names that are overridden return the same values; and an overridden node that is requested has the overriding value.
* `C21_violated` (Overrides.lean): **C21, violated by task-based execution.** `n` is computed from the input `x = 1` although `x` is overridden by 5; the same call in memory uses 5.

*Status:* Proved for overrides that are not also given as inputs; violated otherwise in task-based mode (C21_violated: the input wins).

### C22 Executor concurrency limits are respected — proved

*Modelled:* `PoolExecutor.can_submit_task`/`submit_task` with its list of active futures that is only cleaned when asked.
*Proof:* Invariant: unfinished ⊆ active, |active| ≤ max.

* `C22_pool_bound` (Pool.lean): **C22.** Whatever the interleaving of completions, questions and submissions (each preceded by a positive answer), the pool never has more than `max_tasks` unfinished tasks.
* `C22_grants` (Pool.lean): **C22, no waste.** Asked when fewer than `max_tasks` tasks are unfinished, the pool grants.

### C23 A failing task is reported, never swallowed — partial

*Modelled:* Same model as C16.
*Proof:* Invariant over all runs of arbitrary plans (Proofs/AnyPlan): a normal end requires that the future kept for every task was reported successful; hypothesis that equal ids mean equal work, shown for the plans of C17. Negation by two collectors of one expander.

* `C23_violated` (TaskLimits.lean): **C23, violated for two collectors of one expander.** Both collectors run under the same task id; the one submitted later replaces the future of the first, whose failure is never seen: the call returns a value.
* `C23_failing_task_raises_partial` (Tasks.lean): **C23.** With executors that raise what their tasks raise (all executors of the library), whatever the plan and the schedule: a run that ends without raising has reported every submitted task as successful, with the results of that task's execution. So if any submitted task fails, `execute` raises. Missing: runs in which one task id stands for tasks with different outcomes (`C23_violated`).
* `C23_same_work_partial` (Tasks.lean): In the plans covered by C17 the condition of `C23_failing_task_raises_partial` holds.

*Status:* Proved for every plan in which tasks submitted under one id do the same work, which holds for the plans of C17; C23_violated: with two collectors of one expander the failure of one is lost.

### C24 Results of different parallel branches do not overwrite each other — partial

*Modelled:* The dictionary keyed by `name:group:spawner` strings.
*Proof:* Coordinates injective on separator-free parts; run invariant. Negation by a node named like a cache key.

* `C24_violated` (TaskLimits.lean): **C24, violated for names with `:`.** The result of `expand-e:0:b`, which is 100, is overwritten by that of `b` for the first element.
* `C24_isolated_partial` (Tasks.lean): **C24.** What is written under some coordinates is read back, unless it is overwritten under the same coordinates and the same node name. Missing: names with `:` (`C24_violated`).
* `C24_results_kept_partial` (Tasks.lean): **C24, along runs.** At any time the result cache holds all results reported so far, each under its task's key. Missing: as for C16.

*Status:* Proved for names without ':' in graphs with Parallelizable nodes (no condition otherwise); C24_violated: a node named like a cache key of a branch is overwritten.

### C25 Caching is transparent — partial

*Modelled:* `HamiltonCacheAdapter` (pre/post hooks, `do_node_execute`, versions, cache keys, both stores) inside the DFS of C01; code versions, inputs, config and overrides change between runs of a session.
*Proof:* Invariant over sessions: an entry `(key ↦ version)` and `(version ↦ result)` agree with the denotation of the key; then step-by-step simulation of the plain run.

* `C25_transparent_partial` (Caching.lean): C25: after any history of cached executions, of any graphs and with any changes of code, inputs, config and overrides in between, a cached execution has exactly the outcome of the execution without cache: same values, or same exception. For every metadata store that satisfies `MetaStore.Lawful`; see `memStore_lawful`, `sqlStore_lawful`. Missing are the sessions excluded by `Session.Valid`; three of these exclusions are necessary, see the `C25_violated` theorems.
* `C25_violated_input` (Caching.lean): C25 is violated when an input has the name of a function: the execution without cache ignores it, but the cached one returns a cached result with the version of that input instead of executing the function.
* `C25_violated_default` (Caching.lean): C25 is violated when a parameter with a default value was renamed: the cached execution fails with a `KeyError`, the one without cache succeeds.
* `C25_violated_loader` (Caching.lean): C25 is violated for a data loader whose data is a tuple: the cached execution returns only its first item.

*Status:* Proved for every history, for both metadata stores, for sessions satisfying Session.Valid (inputs do not name functions, no IGNORE, no cached savers, default values recorded under parameter names, loader data not tuples, names without commas). Three of the exclusions are necessary: C25_violated_input, C25_violated_default, C25_violated_loader.

### C26 Cache stores stay safe across crashes — partial

*Modelled:* The same with a budget of store operations: the process dies when it is used up.
*Proof:* Invariant of C25 holds after every single operation (each prefix).

* `C26_crash_partial` (Caching.lean): C26: when an execution was killed at any point between two operations on the stores, later executions still have the outcome of the execution without cache. Missing: the sessions excluded by `Session.Valid`, as for C25.

*Status:* Proved for every kill point between two store operations, under the same conditions on sessions as C25. Kill inside a write: see C51.

### C27 Data fingerprints separate different values — partial

*Modelled:* `hash_value` and its registered functions on primitives, sequences, mappings, sets and objects, with depth.
*Proof:* Induction on typed values with an explicit collision-free hypothesis on the messages digested; negation by `rfl`-style witnesses valid for every digest.

* `C27_same_type_partial` (Fingerprint.lean): C27 for two values of one static type (nested optionals, sequences, dicts with pairwise different keys and sets of primitives): if the digest has no collision among the messages digested for the two values, equal data versions come from values that are equal in the sense of Python. Missing: values of different types, objects, values nested deeper than `MAX_DEPTH`; see `C27_violated`.
* `C27_violated` (Fingerprint.lean): C27 as stated does not hold, whatever the digest: the integer 1 and the string "1", a list and a tuple of the same elements, a dict with one entry and the list of its key and its value, a string and its UTF-8 bytes, instances of different classes with equal attributes, any two instances without attributes, have equal data versions.
* `C27_violated_depth` (Fingerprint.lean): Objects and texts nested below `MAX_DEPTH` are all fingerprinted alike: two lists nested seven deep around different instances have equal data versions (fingerprinting.py:73-79).

*Status:* Equal fingerprints of same-typed values imply equal values, given a collision-free digest with well-formed output; across types and below the depth limit the code collides (C27_violated, C27_violated_depth).

### C28 Fingerprints ignore ordering where ordering has no meaning — partial

*Modelled:* Same.
*Proof:* Sorting is canonical for permutations of entries with different sort keys.

* `C28_set` (Fingerprint.lean): C28 for sets: the iteration order does not matter.
* `C28_dict_partial` (Fingerprint.lean): C28 for dicts: the insertion order does not matter as long as the keys have different data versions. Missing: keys with equal data versions, see `C28_violated`.
* `C28_dict_typed_keys` (Fingerprint.lean): C28 for dicts whose keys have one static type and are pairwise different, when the digest has no collision among the messages of the keys: the insertion order does not matter.
* `C28_equal_values` (Fingerprint.lean): C28 for all nested values of one static type: values equal in the sense of Python have equal data versions, whatever the order of dict entries and set elements at any level.
* `C28_sequence` (Fingerprint.lean): C28 for sequences: two sequences have the same data version only if the data versions of their elements agree position by position.
* `C28_violated` (Fingerprint.lean): C28 as stated does not hold for dicts: for any digest without collision among the messages involved, `{1: "a", "1": "b"}` and `{"1": "b", 1: "a"}` are equal dicts with different data versions, because the keys have equal data versions and the last one wins.

*Status:* Sets, dicts with distinct key fingerprints, sequences and equal values get the same fingerprint regardless of order; a dict whose keys collide depends on insertion order (C28_violated).

### C29 Cache keys identify node, code version and dependency versions — partial

*Modelled:* `create_cache_key`, `decode_key`, the encoding of dependency versions.
*Proof:* Codec round trip on strings; order irrelevance by sorting.

* `C29_decode_partial` (CacheKey.lean): C29, decoding: for a node name of letters, digits and underscores, a code version without dash, and dependency names and versions without comma, decoding the cache key gives back the name, the code version and a dict equal to the dependency versions. Missing: other names, see `C29_violated`.
* `C29_injective_partial` (CacheKey.lean): C29, injectivity: equal cache keys come from the same code version, equal dependency versions, and names that differ at most in characters other than letters, digits and underscores; whatever the code version. Missing: names that only differ in such characters, see `C29_violated`.
* `C29_order` (CacheKey.lean): The order in which the dependencies were recorded does not matter for the cache key.
* `C29_violated` (CacheKey.lean): C29 as stated does not hold: names that differ only in characters that are dropped, such as the dot that separates the namespace of a subdag, share their cache keys, and the name cannot be recovered.

*Status:* Decoding and injectivity hold for plain names and a lawful codec; sanitisation identifies different names and a dash in the sanitised name breaks decoding (C29_violated).

### C30 Metadata stores behave like a map and all implementations agree — partial

*Modelled:* `InMemoryMetadataStore`, `SQLiteMetadataStore` (tables as lists of rows).
*Proof:* Refinement to a map over arbitrary histories; negations by short histories.

* `C30_memory_get` (MetadataStore.lean): C30, in-memory store: after any history of operations whatsoever, `get` answers exactly the version set last and not deleted since.
* `C30_memory_exists` (MetadataStore.lean): C30: a key exists in the in-memory store iff `get` answers a version.
* `C30_sqlite_exists` (MetadataStore.lean): C30: a key exists in the SQLite store iff `get` answers a version; both fail after `delete_all`.
* `C30_sqlite_get_partial` (MetadataStore.lean): C30, SQLite store, for histories in which a key is only set again with the version it has and `delete_all` is not called: `get` answers exactly the version set last and not deleted since. Missing: other histories, see `C30_violated`.
* `C30_agree_partial` (MetadataStore.lean): C30, agreement of the two implementations on such histories.
* `C30_run_ids` (MetadataStore.lean): The run ids agree as well, in the order of the runs.
* `C30_violated` (MetadataStore.lean): C30 as stated does not hold for SQLite: setting a key twice keeps the first version, and after `delete_all` every operation fails, while the in-memory store answers as it should.
* `C30_violated_runs` (MetadataStore.lean): The two stores also differ for the entries of a run: after a deletion the in-memory store fails where SQLite leaves the entry out, and for a namespaced node they report different names.

*Status:* Both stores return the version set last, but SQLite keeps the first of two conflicting versions and run listings differ (C30_violated, C30_violated_runs); agreement is proved when versions are determined by the key.

### C31 Caching behaviour IGNORE stores and versions nothing — partial

*Modelled:* Model of C25.
*Proof:* Run invariant; negation by evaluation of a concrete session.

* `C31_always_executed_partial` (Caching.lean): C31, the part that holds: a function with behaviour "ignore" is executed in every successful run that needs it, whatever the stores contain. Missing: nothing is stored or versioned, which is false, see `C31_violated`.
* `C31_violated` (Caching.lean): C31 is violated: the result of a node with behaviour "ignore" is in the result store after the run, under a version that is recorded in the metadata store for the key `None`.

*Status:* Violated: result and metadata of an IGNORE node are stored (metadata under key None). Proved: it is executed in every successful run.

### C32 RECOMPUTE and DISABLE always execute; DISABLE never touches the stores — proved

*Modelled:* Model of C25.
*Proof:* Run invariant for arbitrary store contents; single step lemma for DISABLE.

* `C32_always_executed` (Caching.lean): C32, first part: a function with behaviour "recompute" or "disable" is executed in every successful run that needs it, whatever the stores contain and for every combination of behaviours of the other nodes.
* `C32_disable_no_store` (Caching.lean): C32, second part: handling a node with behaviour "disable" leaves both stores as they are, and its outcome is that of the function, whatever is in the stores.

*Status:* Both halves proved without conditions on the stores.

### C33 Caching data savers returns the metadata of the matching save — partial

*Modelled:* Model of C25 with saver nodes.
*Proof:* Decision logic; negation by a session of three runs.

* `C33_performed_partial` (Caching.lean): C33, the part that holds: when the save is performed, its own metadata is returned (unless the process is killed or the metadata store fails). Missing: when the metadata comes from the cache, see `C33_violated`.
* `C33_violated` (Caching.lean): C33 is violated: saving 1, then 2, then 2 again returns in the third run the metadata of the save of 1.

*Status:* Violated: the version of a data saver is constant, so a later run may return the metadata of another save. Proved: when the save is performed its own metadata is returned.

### C34 Caching behaviour precedence — partial

*Modelled:* `resolve_behaviors`, `_resolve_node_behavior`, constructor checks, `with_cache`.
*Proof:* Declarative precedence relation vs the two loops; induction over the nodes.

* `C34_precedence_partial` (Behaviors.lean): **C34** (nodes that do not follow another node): whenever behaviours can be resolved, the behaviour of a node is the one, and the only one, that the documented order of precedence gives. What is missing for the full claim are the nodes generated by loaders for another node: see `C34_follow` and the violations below.
* `C34_follow` (Behaviors.lean): A node generated by a loader for a node of the graph gets the behaviour of that node, whatever was asked for its own name.
* `C34_conflict` (Behaviors.lean): Naming a node (that is not Parallelizable) in two sets is an error, whatever else is configured; and the error about several behaviours names a node that really is in two sets.
* `C34_total` (Behaviors.lean): Behaviours can be resolved as soon as no name is in two sets, every word for a behaviour is one, and the nodes tagged as loaders say for which node.
* `C34_violated_loader_default` (Behaviors.lean): **C34 is violated**: the loader added by `@load_from` is tagged as loader and `default_loader_behavior` is "recompute", but it gets DEFAULT. The node is named by no set and has no `@cache` tag. (adapter.py:973-985 passes the loader default as plain default, but the tags of the stand-in node make `_resolve_node_behavior` use its own loader default.)
* `C34_violated_everything` (Behaviors.lean): **C34 is violated**: `with_cache(recompute=True)` asks for RECOMPUTE on every node, but the loader added by `@load_from` gets DEFAULT (the name looked up is that of the parameter, which is not a node).

*Status:* Proved for every node that does not follow another node, plus conflicts, totality and loaders that follow a node of the graph; violated for @load_from loaders: default_loader_behavior and recompute=True etc. are ignored for them (two witnesses).

### C35 Node lifecycle hooks are balanced — partial

*Modelled:* `execute_lifecycle_for_node` and `LifecycleAdapterSet`; hooks are arbitrary state transformers that may raise; events are logged.
*Proof:* Grammar of events (Spec/Hooks) proved for one node, then for runs with the run-generic DFS model.

* `C35_node_partial` (Hooks.lean): **C35** (one node): as long as nothing but subclasses of `Exception` is raised, the calls made for a node are: the hooks before it in order; unless one of them raised, the function once and then the hooks after it in order, each told what the function did; an exception of a hook ends the sequence and is the outcome, otherwise the outcome is that of the function. What is missing for the full claim: interrupts (see `C35_violated_interrupt`) and hooks after the node that raise (see `C35_violated_masked`).
* `C35_run_partial` (Hooks.lean): **C35** (whole runs): under the same condition the history of an execution is made of one such sequence per call of a function, in the order of the calls; all of them succeeded, except the last one if the run ends with an exception of a node, and then it is the one that propagates.
* `C35_adapter_set` (Hooks.lean): Passing the same adapter several times has no effect: each adapter is in the set once, none is lost, and the order is kept. Two adapters that both execute nodes are refused.
* `C35_violated_interrupt` (Hooks.lean): **C35 is violated**: when a node is interrupted (`KeyboardInterrupt`), the hooks after it are told that it succeeded with result `None`; when a hook before it is interrupted, the hooks after it are called although the node was not.
* `C35_violated_masked` (Hooks.lean): **C35 is violated**: if a hook after the node raises, the hooks of later adapters are not called, and the exception of the function does not reach the caller (it is only the context of the hook's exception).

*Status:* Grammar of hook calls proved for single nodes and whole runs when only subclasses of Exception are raised; violated for interrupts (post hooks told success, or called though a pre hook was interrupted) and when a post hook raises (later hooks skipped, the function's exception masked).

### C36 Graceful error handling isolates failures — partial

*Modelled:* `GracefulErrorAdapter.run_to_execute_node` as `do_node_execute` of the DFS.
*Proof:* A denotation with sentinels (Spec/Graceful), soundness and completeness as in C01/C04; comparison with `Den`.

* `C36_values` (Graceful.lean): **C36**, soundness: after a successful run with the adapter every requested node has the value that the specification gives, and that value is unique: the function's value if it ran without raising, the sentinel if it raised the caught error or was skipped because of a sentinel among its arguments.
* `C36_no_caught_error` (Graceful.lean): The caught error never ends a run.
* `C36_isolated` (Graceful.lean): **C36**, isolation (1): a node that has a value in a normal run, and upstream of which no argument is the sentinel, has the same value with the adapter.
* `C36_untouched` (Graceful.lean): **C36**, isolation (2): a value computed with the adapter is the one of a normal run if neither it nor any value upstream of it is the sentinel.
* `C36_total` (Graceful.lean): **C36**, completeness: if functions raise nothing but the caught error and every required input is given, a run with the adapter succeeds, whatever fails (unless the request runs into a circular dependency).
* `C36_violated_sentinel_value` (Graceful.lean): **C36 is violated** as stated: a function that returns the value used as sentinel without raising makes the nodes downstream of it skipped, although nothing failed. (The documentation warns about `None` as sentinel, default.py:600-602.)

*Status:* Values, isolation in both directions, totality and absence of caught errors proved for nodes that are not Parallelizable; the 'iff' of the statement is violated when a function returns the sentinel value itself.

### C37 check_output passes the value through iff no failing FAIL-level check — partial

*Modelled:* `BaseDataValidationDecorator.transform_node` with its generated callables.
*Proof:* The generated nodes are put in an arbitrary graph and evaluated by `Den`.

* `C37_partial` (Decorators.lean): **C37 (partial).** In a graph containing the nodes of a `@check_output` (none of them overridden): * a value of the decorated function is a value of the undecorated function that every validator of importance FAIL accepts; * a value of the undecorated function that every validator of importance FAIL accepts is the value of the decorated one, provided that no validator raises on it, whatever the validators of importance WARN say; * if a validator of importance FAIL rejects it (and none raises), the decorated function is called and raises. Several validators of the same kind (same name) are all run. Missing: a validator of importance WARN that raises fails the run (`C37_violated_warn`); a validator named like the second occurrence of another one (`C37_violated_names`).
* `C37_violated_names` (Decorators.lean): **C37 violated, names.** A validator whose name is that of the second occurrence of another one: the nodes of the decorator clash and no graph can be built, although every validator accepts every value.
* `C37_violated_warn` (Decorators.lean): **C37 violated.** Every validator of importance FAIL accepts the value, but a validator of importance WARN raises: the run fails.

*Status:* Both directions and the error proved for validators whose names cannot be mistaken for the second occurrence of another one or for the raw node (ClearNames) and that do not raise on the value; violated when a WARN validator raises: the run fails, and when a validator is named like the second occurrence of another: the graph cannot be built (witnesses).

### C38 config.when family selects exactly the functions whose condition holds — partial

*Modelled:* `config` decorators, `resolve_config`, name mutation across builds, `find_functions`.
*Proof:* Induction on resolvers and on the history of builds; string lemmas about the last double underscore.

* `C38_selection` (Config.lean): **C38, selection.** Whatever was built before from the same module, a public function of the module is in the graph iff every condition it is decorated with holds for the configuration, keys that are not given counting as `None`; building never fails. (An explicit `name=` must not start with an underscore; see `C38_violated_private_name`.)
* `C38_names_partial` (Config.lean): **C38, names (partial).** Whatever was built before from the same module, a decorated function that is in the graph has as its node name the part of the function's name before the last double underscore — provided that this part contains no further double underscore and no decorator gives an explicit name. Missing: names with several double underscores (`C38_violated_rebuild`, `C38_violated_stacked`).
* `C38_first_build` (Config.lean): **C38, first build.** The first time a module is built, a function with a single condition and no explicit name is named by the part of its name before the last double underscore, however many there are.
* `C38_violated_rebuild` (Config.lean): **C38 is violated** by rebuilding: the first build renames the function object to `spend__per`, the second one cuts that name again, so the same module with the same configuration gives a node called `spend__per` and then one called `spend` (configuration.py:183).
* `C38_violated_stacked` (Config.lean): **C38 is violated** by two decorators on one function: each of them cuts the name at its last double underscore, so `spend__per__us` becomes `spend` instead of `spend__per` in the very first build.
* `C38_violated_private_name` (Config.lean): **C38 is violated** by an explicit name that starts with an underscore: the renamed function is no longer public, so the second build of the module does not find it (graph_utils.py:20).

*Status:* Selection, names and first build proved; violated when the same module is built a second time with stacked or renaming config decorators (functions are renamed in place) and when the resolved name starts with an underscore (three witnesses).

### C39 parameterize evaluates the function with the specified arguments — partial

*Modelled:* `parameterize.expand_node` with `replacement_function` and `functools.partial`.
*Proof:* `Den` of the generated node vs a specification of the arguments (Spec/Decor).

* `C39_partial` (Decorators.lean): **C39 (partial).** In a graph containing the nodes generated by a `@parameterize` (or `@inject`), each of them has a value iff the decorated function returns it on the arguments the specification asks for: literals, values of sources, lists and dictionaries of them, and for parameters that are not mentioned the node of the same name or the default. Missing: sources that are optional inputs and are not supplied (`C39_violated_default`, `C39_violated_leak`).
* `C39_violated_default` (Decorators.lean): **C39 violated.** The source of `b` is an optional input that is not supplied; the function on the remaining specified arguments, `f(a=1)`, returns 110, but the node raises `KeyError`.
* `C39_violated_leak` (Decorators.lean): **C39 violated.** The source of `b` is an optional input called `a`, and the parameter `a` is replaced by the literal 1: when the input is not supplied, `b` silently becomes the literal (`f(a=1, b=1)` = 101) instead of its default (`f(a=1)` = 110).

*Status:* Proved as an equivalence for all parameterizations whose sources have a value; violated for sources that are optional inputs not supplied: KeyError instead of the default, or a literal of another parameter leaks in (two witnesses).

### C40 subdag is a faithful, isolated copy — partial

*Modelled:* `subdag` and `parameterized_subdag`: renaming, static and identity nodes, final node.
*Proof:* The renaming is a simulation between `Den` in the separate graph and `Den` in the surrounding one; isolation by an independence lemma.

* `C40_faithful_partial` (Subdag.lean): **C40, faithful copy (partial).** Every function `k` of a subdag has, under the namespace, exactly the value it has in a separate driver given the mapped inputs and the configuration. Missing: functions that refer to a name of the namespace from outside; and configurations that replace a function of the subdag, which a separate driver accepts (`C40_violated_config`).
* `C40_final_partial` (Subdag.lean): **C40, the decorated function (partial).** The node of the decorated function has the value the function returns when its parameters are given the values that the functions of the subdag have in the separate driver, and its external inputs the values they have in the surrounding graph. Missing: a parameter that is an input mapped to a node and that no function of the subdag uses (`C40_violated_unused`).
* `C40_parameterized` (Subdag.lean): **C40, `@parameterized_subdag`.** Every entry of the parameterization generates (among the nodes of the decorator) the nodes of a subdag whose namespace and final node are named after it, whose inputs and configuration are the entry's own, with the decorator's as a fallback, and whose functions are those selected by this configuration.
* `C40_isolated` (Subdag.lean): **C40, isolation.** Adding functions to a graph (in particular the nodes generated by a subdag) does not change the value of any node that is not computed from one of them.
* `C40_violated_config` (Subdag.lean): **C40 violated.** A configuration may replace a function in a driver, but not in a subdag: with `config={"a": 1}` the separate driver is built, the graph with the subdag is refused because `sub.a` is defined twice.
* `C40_violated_unused` (Subdag.lean): **C40 violated.** An input that is mapped to a node and used by the decorated function only is not created: the graph asks the user for an input `sub.y`. The same input mapped to a literal works.

*Status:* Proved under SubdagSetting (mapped inputs are used by the subdag's own nodes, configuration keys are not function names, no name escapes the namespace): values of the namespaced nodes and of the decorated function equal those of a separate driver run; isolation and parameterized_subdag. The two missing cases are violations with witnesses.

### C41 extract_fields exposes exactly the fields of the produced dict — partial

*Modelled:* `extract_fields.transform_node`.
*Proof:* As C37.

* `C41_dict` (Decorators.lean): **C41, the dictionary.** In a graph containing the nodes of an `@extract_fields`, the node of the function has a value `v` iff the undecorated function has one: without a fill value it is the same, with a fill value (and a dictionary as the function's value) it is that dictionary with exactly the missing fields added.
* `C41_field_partial` (Decorators.lean): **C41, the fields (partial).** In a graph containing the nodes of an `@extract_fields`, the node of a field has exactly the value stored under that key in the dictionary; if the key is missing, the node's function raises. Missing: a function called `field_to_extract` (`C41_violated_name`).
* `C41_violated_name` (Decorators.lean): **C41 violated.** A function called `field_to_extract` returns a dictionary with the key `a`, but the node `a` has no value: the name is captured by a parameter of the generated function, which then raises `KeyError`.

*Status:* Dictionary node and field nodes proved for all dictionaries, fields and fill values; violated for a function called field_to_extract (KeyError).

### C42 Selecting columns keeps exactly what is needed to compute them — proved

*Modelled:* `prune_nodes` with its stack; the order of the initial set is a parameter.
*Proof:* Worklist invariant = reachability, termination by unseen names.

* `C42_prune` (Targets.lean): **C42.** For every list of nodes, every selection and every order in which Python may iterate over the set of selected nodes: pruning terminates; it fails iff a selected name does not exist; otherwise it returns, each once, exactly the nodes that are selected or needed transitively by a selected node inside the list. (Where several nodes have the same name the last one counts.)
* `C42_no_selection` (Targets.lean): **C42, no selection.** Without a selection every node is kept.

### C43 Copying a Builder preserves its configuration; building twice gives equivalent drivers — partial

*Modelled:* `Builder` as a mutable object: configuration dictionaries live on a heap shared by builders and drivers; programs are arbitrary sequences of operations.
*Proof:* Invariant: references of different builders differ; induction on programs.

* `C43_independent` (Builder.lean): **C43, independence.** Whatever a program does with other builders, including copies of builder `i`, building `i` gives a driver with the same settings.
* `C43_copy_partial` (Builder.lean): **C43, copies (partial).** Copying a builder and building the copy gives a driver with the same settings as building the original. Missing: `allow_module_overrides`, which is not copied (`C43_violated_copy`).
* `C43_rebuild_partial` (Builder.lean): **C43, building again (partial).** Building leaves the settings of the next build unchanged. Missing: builders with `with_adapter`, whose adapter is added once more by every build (`C43_violated_rebuild`).
* `C43_driver_partial` (Builder.lean): **C43, drivers (partial).** The settings of a driver that has been built do not change, whatever the program does next, as long as it does not call `with_config` on the builder that built it. Missing: such calls, which change the driver's configuration (`C43_violated_driver`).
* `C43_settings` (Builder.lean): **C43, settings.** After any sequence of successful method calls on a new builder, the driver built has: for every configuration key the value of the last `with_config` call giving one; the modules and materializers of all calls in order; the adapters of all `with_adapters` and `with_cache` calls in order, then that of `with_adapter`; module overrides iff `allow_module_overrides` was called; and task-based execution iff dynamic execution was enabled.
* `C43_violated_copy` (Builder.lean): **C43 violated.** The copy of a builder that allows module overrides does not allow them.
* `C43_violated_rebuild` (Builder.lean): **C43 violated.** With `with_adapter`, the second driver has the adapter twice.
* `C43_violated_driver` (Builder.lean): **C43 violated.** Configuring the builder further after a driver was built changes the configuration of that driver.

*Status:* Proved for all programs of builder operations: independence of builders and copies, settings after any sequence of calls. Partial: copy without allow_module_overrides, rebuild without with_adapter, built drivers without later with_config on the builder; each missing case is a violation with a witness.

### C44 Tag queries — proved

*Modelled:* `matches_query`, `list_available_variables`.
*Proof:* Against a set-theoretic condition.

* `C44_matches` (Tags.lean): A node matches a query exactly when it satisfies its condition.
* `C44_list` (Tags.lean): `list_available_variables` with a query of strings, non-empty lists and `None`: exactly the nodes that satisfy the query, in the order of the graph and each as often as in the graph.
* `C44_other` (Tags.lean): Without query every node is listed; a query with another value is refused whatever the graph.

### C45 Only functions of the given module become nodes — partial

*Modelled:* `is_submodule`, `find_functions`.
*Proof:* String lemmas: a dotted prefix is a substring; negation by a witness.

* `C45_partial` (Config.lean): **C45 (partial).** Collecting the functions of a module finds every public function defined in the module or in one of its submodules, keeps them in order and finds no private function; everything it finds was defined in a module whose name contains the module's name. Hence, if no member comes from a foreign module with such a name, it finds exactly the public functions of the module and its submodules. Missing: foreign modules whose name merely contains the module's (`C45_violated_foreign`).
* `C45_violated_foreign` (Config.lean): **C45 is violated**: whether a function belongs to a module is decided by looking for the module's name anywhere in the name of the function's module (graph_utils.py:7), so a function imported from `pandas` into a module called `a` becomes a node.

*Status:* Proved when no foreign module's name contains the loaded module's name; violated otherwise: the module test is a substring test (witness).

### C46 Adding materializers does not change other values — partial

*Modelled:* `modify_graph`, `Driver.materialize`.
*Proof:* Conservativity of `Den` under adding nodes and re-wiring; loaders = overrides by comparing `Den` in both graphs.

* `C46_values_partial` (Materialize.lean): **C46, values (partial).** In a graph modified by any materializers and extractors, every node of the original graph has exactly the value it has in the original graph when the loaded values are given as overrides (explicit overrides taking precedence). Missing: a graph that already has a node called `load_data.<target>`, which is replaced (`C46_violated_clash`).
* `C46_materializers` (Materialize.lean): **C46, materializers.** Materializers add nodes only: every node of the graph keeps its value.
* `C46_driver` (Materialize.lean): **C46, driver.** If `Driver.materialize` returns, then the requested variables can be computed without the materializers, and they have the same values.
* `C46_violated_clash` (Materialize.lean): **C46 is false when a node is already called `load_data.<target>`**: a loader for `base` changes `w`, which does not depend on `base`.

*Status:* C46_materializers and C46_driver: adding materializers never changes the value of a node (C46_driver needs the modified graph to be acyclic). C46_values_partial: loaders act exactly like overrides with the loaded values. Missing: a graph that already has a node named load_data.<target>, where the claim is false (C46_violated_clash).

### C47 Async execution returns the same values for every interleaving — partial

*Modelled:* `AsyncGraphAdapter.do_node_execute`, `process_value`, `await_dict_of_tasks` and `AsyncDriver.execute`: the synchronous DFS creates tasks, the event loop is an arbitrary sequence of choices.
*Proof:* Invariant: each task's state agrees with the denotation (kwargs sorted); a measure decreases with every step; a step is always possible until the end.

* `C47_deterministic` (Async.lean): **C47, determinism.** Whatever the event loop does, the outcome is that of the functional composition with keyword arguments sorted by name: results are exactly the requested names with these values; an exception is one that a needed function raises on the right arguments, and then some requested name has no value; each function is called at most once, with the right arguments, and only if needed.
* `C47_terminates` (Async.lean): **C47, termination.** Every run of the event loop ends after at most two steps per task and one for the result, and it can go on until `execute` has returned or raised: no deadlock.
* `C47_same_values_partial` (Async.lean): **C47, same values as the functional composition (partial).** If every requested name has a value by functional composition, then the run starts, and whatever the event loop does, `execute` returns exactly these values or is still going on; it never raises. Missing: functions with `**kwargs` that depend on the order of keyword arguments (`C47_violated_order`), and requested names that are only inputs (`C47_violated_input`).
* `C47_same_as_sync_partial` (Async.lean): **C47, same as the default driver (partial).** If `Driver.execute` returns a value for every requested node, then `AsyncDriver.execute` returns the same values for every interleaving. Missing: as for `C47_same_values_partial`.
* `C47_violated_order` (Async.lean): **C47 is violated** by functions that depend on the order of keyword arguments: the default driver passes `b` first, the asynchronous one sorts the arguments by name.
* `C47_violated_input` (Async.lean): **C47 is violated** by a requested name that is only an input: the default driver returns it, the asynchronous one raises a `KeyError`.

*Status:* Proved for every schedule of the event loop with respect to the functional composition with keyword arguments sorted by name (C47_deterministic, C47_terminates). Equality with the default driver holds for functions that do not depend on the order of keyword arguments; violated for **kwargs functions that do (C47_violated_order) and for requested names that are only inputs (C47_violated_input). Lifecycle hooks, cancellation and awaitable inputs are not modelled.

### C48 Decorator targets partition the nodes — proved

*Modelled:* `NodeTransformer` selection, complement and transformation.
*Proof:* List partition lemmas; `Node.__eq__` ignoring callables is modelled and shown harmless.

* `C48_partition` (Targets.lean): **C48, partition.** If decorating succeeds, the nodes are split into those that the target stands for and the rest (each node of the list on exactly one side, in the order of the list); the rest is kept as it is and the result consists of it and of the nodes the decorator makes out of each of the others. Node equality in the code ignores the callable and the parameters; the theorem shows that this does not matter, whatever the list of nodes.
* `C48_unknown` (Targets.lean): **C48, unknown names.** With nodes of distinct names and a target that lists no name twice, decorating fails iff the target mentions a name that no node has; targeting the sinks or everything never fails.
* `C48_single` (Targets.lean): **C48, single node decorators.** A decorator that wants a single node succeeds iff there is exactly one sink; it then replaces that node and keeps the others.

### C49 Type compatibility of edges and inputs — partial

*Modelled:* `types_match`, `custom_subclass_check`, `check_input_type` on type terms over an arbitrary class hierarchy, and the type checks of graph construction.
*Proof:* Set semantics of types over arbitrary values (Spec/Types), induction on fuel and type terms; an invariant of the wiring loop for edges and input types.

* `C49_refl` (Types.lean): **C49, reflexive.**
* `C49_any` (Types.lean): **C49, `Any`.** A parameter without a specific type accepts everything except a type variable, and a node of type `Any` can be used everywhere.
* `C49_sound_partial` (Types.lean): **C49, soundness (partial).** If the types match, every value of the node's type is a value of the parameter's type, in every world in which subclasses take their type arguments in the same places. Missing: a node of type `Any`; a parameter with type arguments where the node's type has none (accepted on purpose, htypes.py:80); user-defined generic classes without arguments (`C49_violated_generic`); the markers `Parallelizable` and `Collect` (see `C49_markers`).
* `C49_union_member` (Types.lean): **C49, members of a union.** A parameter `Union[…]` (or `Optional`) accepts whatever one of its members accepts.
* `C49_classes` (Types.lean): **C49, classes.** Between classes the check is `issubclass`, and a class is accepted by a union of classes exactly if it is a subclass of a member.
* `C49_exact` (Types.lean): **C49, exactness for classes and unions of classes.** The check accepts precisely if every value of the node's class is a value of the parameter's type, whatever the values are.
* `C49_markers` (Types.lean): **C49, dynamic execution.** A `Parallelizable[t]` node is used as a `t`; a `Collect[t]` parameter takes what a parameter of type `t` takes.
* `C49_accepts` (Types.lean): **C49, acceptance in every order.** Construction succeeds, in whatever order the functions are listed, if every parameter matches the function it names and any two types declared for the same input are comparable.
* `C49_edges` (Types.lean): **C49, edges are checked.** In a graph that was built, every parameter matches the function it names. The type of an input is the type that some parameter declares for it, and it is below every type declared for it, in every preorder `R k` that contains the check on these types.
* `C49_values_partial` (Types.lean): **C49, values on edges (partial).** In a graph that was built, every value of the type of a node is a value of the type of every parameter that takes it; for an input, a value of the type recorded for it suits every function that takes it. Missing: as for `C49_sound_partial`; here the types declared under the name either all have type arguments or all have none.
* `C49_inputs_exact` (Types.lean): **C49, inputs of simple types.** For classes, unions, literals and type variables the check of an input accepts exactly the values of the type.
* `C49_inputs_accepted_partial` (Types.lean): **C49, inputs are not rejected wrongly (partial).** For classes, unions, literals, lists, sequences, sets and iterables a value of the type is accepted. Missing: tuples and other generic classes (`C49_violated_tuple`, `C49_violated_mapping`), generic classes without arguments and annotated types, where only values of exactly the class are accepted.
* `C49_violated_generic` (Types.lean): **C49 is violated** by generic classes without type arguments: unrelated classes match, because the origin of both is `None`.
* `C49_violated_union` (Types.lean): **C49 is violated** by unions on both sides: every value of `Union[int, str]` is a value of `Union[int, str, float]`, but the edge is rejected.
* `C49_violated_order` (Types.lean): **C49 is violated** by the order of functions. An input that three functions take as `Both`, `L` and `R` (or as `Any`, `int` and `str`) is accepted in one order and rejected in another.
* `C49_violated_tuple` (Types.lean): **C49 is violated** by tuples: no value is accepted for an input declared as `Tuple[int, int]`.
* `C49_violated_mapping` (Types.lean): **C49 is violated** by `Mapping[str, int]`, which rejects dictionaries (as every generic class other than lists, sequences, sets and iterables rejects instances of subclasses).

*Status:* types_match, custom_subclass_check, check_input_type and the type checks of graph construction are modelled. Reflexivity, Any, union members, exactness on classes, edges checked and acceptance in every order (pairwise comparable input types) are proved. Soundness is partial. Violated by unparameterised generic classes (C49_violated_generic), unions on both sides (C49_violated_union), the order of functions (C49_violated_order), Tuple[...] inputs (C49_violated_tuple) and Mapping inputs (C49_violated_mapping).

### C50 Task grouping covers every node exactly once — partial

*Modelled:* The four grouping strategies.
*Proof:* Partition invariants; blocks via C10; plans are valid for the scheduler.

* `C50_blocks` (Blocks.lean): **C50, default strategy.** If every collector has one expander and every expander one collector, every node is put in exactly one task; the block of an expander is exactly what lies between it and its collector; the expander and the collector are tasks of their own; everything else is a task of its own.
* `C50_default_plan` (Blocks.lean): **C50/C18.** If moreover blocks are sealed and the nodes to execute are closed under required parameters, the plan exists and is one for which the guarantees C16–C20 and C23–C24 hold: it runs to the end.
* `C50_individually` (TaskEquiv.lean): C50 (no `Parallelizable`). One task per node: every node is in exactly one task, tasks do not depend on each other in a circle.
* `C50_blocks_plain` (TaskEquiv.lean): C50 (no `Parallelizable`), for the default strategy.
* `C50_all_as_one` (TaskEquiv.lean): C50 (no `Parallelizable`), one task for everything.
* `C50_by_level` (TaskEquiv.lean): C50 (no `Parallelizable`), one task for every level of the graph.
* `C50_violated` (TaskEquiv.lean): **C50, violated.** A block that also uses the collected result of an earlier block: the search for the start of the second block runs through the first one, so `b1` and `c1` are put in two tasks, the block repeats the earlier collector, and two groups get the same name.

*Status:* All four strategies partition nodes without Parallelizable; the default strategy partitions graphs of separate blocks, with exactly the nodes between expander and collector in a block, and the resulting plan runs to the end. C50_violated: a block that uses an earlier collected result makes the default strategy put nodes in two tasks.

### C51 A kill while a result is being written does not break later cached executions — partial

*Modelled:* File result store as in C25 with a write that is torn.
*Proof:* Negation by a session.

* `C51_violated` (Caching.lean): C51 is violated: when the process is killed while the file of a result is being written, every later execution of the same thing fails, although the one without cache succeeds.

*Status:* Violated: the truncated file makes later runs raise. What holds is C26.

### C52 Re-running with unchanged code and inputs executes nothing — partial

*Modelled:* Model of C25, trace of calls.
*Proof:* From the invariant of C25: all lookups of the second run hit.

* `C52_rerun_partial` (Caching.lean): C52: after any history, when a cached execution in which every node has the default behaviour succeeds, executing the same thing again executes no function and returns the same values. Missing: the sessions excluded by `Session.Valid`, as for C25.

*Status:* Proved for every history and both metadata stores, under the conditions of Session.Valid (as for C25), default behaviour everywhere and hashable values.

### C53 Savers and loaders get the arguments and the data they were declared with — partial

*Modelled:* Loader and saver nodes made from classes and declared arguments.
*Proof:* `Den` in the modified graph vs the class applied to the declared arguments.

* `C53_loader_partial` (Materialize.lean): **C53, loading (partial).** In the modified graph the target has exactly the values that its loader class returns for the arguments given: literals as they are, sources with the values of the named nodes. Missing: two arguments with the same source and sources named like an argument given as a literal (`C53_violated_source`, `C53_violated_literal`).
* `C53_saver_partial` (Materialize.lean): **C53, saving (partial).** In the modified graph the materializer's node has exactly the values (metadata) that its saver class returns when it saves the value of the dependency, or what the result builder makes of the dependencies, with the arguments given. Missing: two arguments with the same source, sources named like an argument given as a literal, an argument named like the saved node (`C53_violated_saved`), two materializers with the same id (`C53_violated_ids`).
* `C53_violated_source` (Materialize.lean): **C53 is false when two arguments have the same source**: `from_.x(target="base", path=source("x"), fmt=source("x"))` with `x = 1` should load with `path=1, fmt=1`; the loader gets `fmt` only.
* `C53_violated_literal` (Materialize.lean): **C53 is false when a source is named like an argument given as a literal**: with `path=source("fmt"), fmt=3` and `fmt() = 8` the loader should get `path=8, fmt=3`; it gets no `path`.
* `C53_violated_saved` (Materialize.lean): **C53 is false when the saved node is named like an argument of the saver**: saving the node `path` (value 9) with the argument `path=5` calls the saver without `path`.
* `C53_violated_ids` (Materialize.lean): **C53 is false when two materializers have the same id**: the first one is silently dropped.

*Status:* Each loader target / materializer node has exactly the values of its class on the declared arguments and data. Missing, with machine-checked witnesses: two arguments with the same source, source named like a literal argument, saved node named like a saver argument, duplicate materializer ids. Exactly-once follows from C02 on the modified graph.

### C54 Circular dependencies affect only the calls that need them — proved

*Modelled:* The fuelled `dfs_traverse`; `NeededCycle` (specification): a needed node from which a path of parameters of non-overridden nodes leads back to it.
*Proof:* A node with a value is accessible for the relation "is a parameter of a non-overridden node" (induction over `Den`), hence on no circle; a recursion deeper than the number of nodes contains a circle (pigeonhole).

* `C54_needed_cycle_fails` (Cycles.lean): **C54, a needed circle never gives a result.** If the request runs into a circular dependency that no override cuts, then `Driver.execute` does not return.
* `C54_recursion_needs_cycle` (Cycles.lean): **C54, only a needed circle makes the recursion endless.** `Driver.execute` ends with a `RecursionError` of the traversal only if the request runs into a circular dependency that no override cuts.
* `C54_any_limit` (Cycles.lean): **C54, whatever the recursion limit.** However deep the recursion may go, the traversal of a node that leads to a circular dependency does not return.
* `C54_other_requests` (Cycles.lean): **C54, other requests are not affected.** If every requested node has a value by functional composition, the run returns these values although other functions of the driver depend on each other in a circle.

*Status:* RecursionError is modelled as running out of fuel; C54_any_limit shows that no fuel helps. Python's recursion limit on very deep acyclic graphs is not modelled.

### C55 The builder refuses contradictory settings — partial

*Modelled:* The builder methods (`applyCall`); specification `Allowed`: a call against the list of calls before it.
*Proof:* Induction over the calls; the fields of the builder reflect the calls made.

* `C55_accepted` (BuilderChecks.lean): **C55, what is accepted.** A sequence of method calls on a new builder raises no `ValueError` iff no call contradicts the calls before it: executors, managers and groupings need dynamic execution and are set at most once, an executor is not set after a manager, nor a manager after a remote executor, a cache is not added when there is one.
* `C55_one_cache_partial` (BuilderChecks.lean): **C55, one cache (partial).** A driver that was built has at most one cache, if no single call of `with_adapters` gives several and the adapter of `with_adapter` is none. Missing: such calls (`C55_violated_caches`).
* `C55_executors_partial` (BuilderChecks.lean): **C55, the executors used (partial).** In task-based execution the built driver uses the execution manager if one was set, and otherwise exactly the executors that were set. Setting a remote executor and a manager is refused in both orders. Missing: a local executor set before a manager is accepted and ignored (`C55_violated_local`).
* `C55_violated_caches` (BuilderChecks.lean): **C55 violated, caches.** Two caches in one call of `with_adapters` are accepted.
* `C55_violated_local` (BuilderChecks.lean): **C55 violated, local executor.** A local executor set before a manager is accepted, and the driver does not use it; in the other order the call is refused.

*Status:* The accepted sequences are characterised exactly as the code has them (C55_accepted). Two contradictions are accepted (witnesses): several caches in one with_adapters call (or one given to with_adapter), and a local executor followed by a manager, which is then ignored. Argument checks of with_materializers are not modelled.

### C56 Parallel execution computes what a sequential loop would — partial

*Modelled:* `TaskBasedGraphExecutor.execute` with the default grouping; specification `ParDen` (inductive, no tasks or queues): value of a node under overrides, a collector gets the list of values under `expander := element`.
*Proof:* Invariant over the trace: what a submitted task is given are values of the reading in the environment of its branch; inner execution by C01/C04 on the subgraph; determinism of the reading gives schedule independence; completeness from C18 and absence of faults. Negations by evaluation of overridden block nodes.

* `C56_sequential_partial` (Parallel.lean): **C56, soundness.** Whatever the executors and the order of completion: if a task-based call returns, it returns exactly the requested names, each with the value of the sequential reading. Missing: other grouping strategies, and the calls excluded by `BlockCall` (`C56_violated_override` and others show that overrides in blocks give different values).
* `C56_reading_unique_partial` (Parallel.lean): **C56, one value.** In the calls considered the sequential reading gives a needed node at most one value.
* `C56_schedule_partial` (Parallel.lean): **C56, schedule independence.** Two runs of one call that return, with whatever executors and completion orders, return the same values.
* `C56_complete_partial` (Parallel.lean): **C56, completeness.** If the sequential reading gives every needed node outside of blocks a value, the task-based call returns, under every schedule of executors that complete what they are given and neither break nor hide failures; with these values.
* `C56_violated_override` (Parallel.lean): **C56, violated for an overridden node of a block.** With `overrides={"b": 3}` the collected values are 3, 3, but the collector is called with the empty list.
* `C56_violated_inner` (Parallel.lean): **C56, violated for an overridden inner node of a block.** With `overrides={"a": 3}` the collected values are 5, 5, but the call raises `KeyError`.

*Status:* Proved for the default grouping and calls in which every needed collector has one expander and vice versa, block values are used only in their block and by the collector, nothing of a block is overridden, given as input or requested, names have neither ':' nor '-', inputs and overrides of one name agree. C56_violated_override, C56_violated_inner: overrides inside of a block give an empty list or a KeyError.

### C57 @pipe_input and @pipe_output mean function composition — partial

*Modelled:* `Model/Pipe`: `step`, argument binding, `chain_transforms`, `Node.reassign_inputs`, `pipe_input.inject_nodes` with the choice of the parameter, `pipe_output.transform_node` with `on_output`. Specification `Spec/Pipe`: `ChainValue` (composition, arguments by `StepArgs`), `PipedValue`, `chainNames`.
*Proof:* Renaming back and forth is the identity on the arguments when the names involved are apart (`reassign_args`); one step by comparison of arguments with `StepArgs` (`step_value`), chains by induction on the steps (`chain_value`, `chain_names`), the decorated function through `Den`. Negations by evaluating built graphs; coroutines for all steps.

* `C57_input_partial` (Pipe.lean): **C57, `@pipe_input` (partial).** Let a function with nodes `nodes` be decorated with `@pipe_input(step₁, step₂, …)`, and let a graph contain the resulting nodes. The piped parameter is the one named in `on_input`, otherwise the first one. A node of the function that has the parameter returns what its function returns when the parameter is given the composition of the steps (those whose `when` holds) applied to the value the parameter would have had, and the other parameters their usual values; the other nodes of the function are unchanged; and the nodes of the chain have the documented names and the values of the partial compositions. Missing: steps that use one node for two arguments, or a node called like a parameter given a literal, or unmentioned optional parameters that have a value in the graph (`C57_violated_*`), a piped parameter without a value (`¬ Absent`), and a last step called like another parameter.
* `C57_output_partial` (Pipe.lean): **C57, `@pipe_output` (partial).** Let a function (not a coroutine) with nodes `nodes` be decorated with `@pipe_output(step₁, step₂, …)`, and let a graph contain the resulting nodes. A node the decorator applies to keeps its name and has the value obtained by applying the composition of the steps that apply (no `on_output` or one naming the node, and `when` holds) to the value of the undecorated function; that one is available as `<name>.raw`, and the nodes of the chain have the values of the partial compositions. Other nodes of the function are unchanged. Missing: the same conditions on the steps as for `@pipe_input`, and coroutines (`C57_violated_async`).
* `C57_violated_async` (Pipe.lean): **C57 violated: coroutines.** A `@pipe_output` that has a step for a node of an `async def` function always fails when the driver is built.
* `C57_violated_literal` (Pipe.lean): **C57 violated: a literal for a parameter called like the piped one.** With `def mul(x, y=2): return x * y`, `@pipe_input(step(mul, y=5)) def f(y): return y` should return `5 * y`; it returns `5 * 2` whatever `y` is: the literal is passed as `x`.
* `C57_violated_same_source` (Pipe.lean): **C57 violated: one node for two parameters.** A step that uses the piped value also for another parameter raises `TypeError`, as one of the two parameters is not passed.
* `C57_violated_default` (Pipe.lean): **C57 violated: defaults of a step.** The step `mul(a)`, with `y` not mentioned, uses the default `y=2` - unless the driver happens to contain a node (or is given an input) called `y`.
* `C57_violated_on_input` (Pipe.lean): **C57 violated: `on_input` that names no parameter.** `@pipe_input(…, on_input="c") def f(a, b)` is accepted and pipes the parameter `a`.
* `C57_violated_namespace` (Pipe.lean): **C57 violated: the namespace of a step of `@pipe_output`.** `step(_add_one).named("s", namespace="foo")` becomes `foo.s` in a `@pipe_input` but `f.s` in a `@pipe_output`.
* `C57_violated_names` (Pipe.lean): **C57 violated: generated names clash.** `step(_add_one), step(add_one)` are two functions, but both nodes are called `f.with_add_one`: the driver cannot be built.
* `C57_violated_stacked` (Pipe.lean): **C57 violated: two `@pipe_output` on one function.** Both make a node `f.raw`: the driver cannot be built.

*Status:* Proved for steps in which no two arguments come from one node, no argument comes from a node called like a parameter given a literal, and unmentioned optional parameters have no value in the graph; piped parameter has a value. Violations: C57_violated_literal (wrong value), _same_source, _default, _on_input, _namespace, _names, _stacked, _async.

### C58 @mutate changes exactly the outputs of its targets — partial

*Modelled:* `mutate.__call__` on the table of `@pipe_output`s of a module; specification `mutationSteps`.
*Proof:* The table after any sequence of mutators is the old one with the mutation steps appended (induction on mutators and targets), then C57. Negations by evaluating built graphs.

* `C58_others_unchanged` (Mutate.lean): **C58, frame.** The nodes of a function that no mutator mentions are the same as without the mutators.
* `C58_value_partial` (Mutate.lean): **C58 (partial).** In a module, the function `k` has no `@pipe_output` or one without `on_output`, and then mutators `ms` are defined. In a graph containing the resulting nodes of the function, every output of the function has the value obtained from the value of the undecorated function by the steps of its `@pipe_output` followed by the mutations asked for (those that apply to this output and whose conditions hold), in the order in which they are defined; the outputs that are not final are unchanged. Missing: a `@pipe_output` restricted with `on_output` (`C58_violated_on_output`), several `@pipe_output`s (`C58_violated_stacked`), and the conditions on the steps of C57.
* `C58_violated_on_output` (Mutate.lean): **C58 violated: `on_output` of an existing `@pipe_output`.** Mutating a function that has a `@pipe_output` restricted to one output changes only that output; without the `@pipe_output` all outputs are changed.
* `C58_violated_stacked` (Mutate.lean): **C58 violated: several `@pipe_output`s.** A function with two `@pipe_output`s, one of which is active, can be built; after `@mutate` it cannot, as the mutation is added to both of them.

*Status:* Proved for targets with no @pipe_output or one without on_output (conditions on steps as in C57); frame proved without conditions. C58_violated_on_output, C58_violated_stacked: an existing restricted or second @pipe_output changes what is mutated.

### C59 Code versions and hamilton diff report exactly the changed functions — partial

*Modelled:* `_remove_docs_and_comments` on abstract syntax trees, `hash_source_code`, `HamiltonNode.version`, `HamiltonGraph.version`, `hash_dataflow`, `diff_versions`, and how the graph records originating functions; specification `SameCode` (equal up to a first string in function bodies), inductively. Parsing, printing and sha256 are parameters; `Faithful` assumes that printing of stripped trees and hashing are injective (instance in `VersionSample`).
*Proof:* Mutual induction on trees shows stripping equal iff `SameCode`; the diff loop by induction on the dict with exact membership; function nodes keep their origin through `update_dependencies` (invariant of the folds). Negations by evaluation.

* `C59_code` (Versions.lean): **C59, code.** Two functions whose sources can be parsed have the same version iff they are the same up to docstrings (of the function and of functions defined inside).
* `C59_diff_partial` (Versions.lean): **C59, diff (partial).** For two dataflows all of whose nodes have a version, `hamilton diff` lists every node once: as only in the current one iff only that has it, likewise for the reference, and as edited iff both have it with different versions. Missing: nodes without a version (`C59_violated_none`).
* `C59_edited_partial` (Versions.lean): **C59, edited functions (partial).** Two drivers are built, one from the current and one from the reference code, and both have a node `k` made from one function (`f` and `f'`). `hamilton diff` lists `k` as edited iff the two functions differ in more than documentation. Missing: functions that a node calls or that are attached to it with other decorators (`C59_violated_step`), inputs (`C59_violated_input`), and sources that cannot be parsed (`C59_violated_indented`).
* `C59_dataflow` (Versions.lean): **C59, version of a dataflow.** Two dataflows have the same version iff the versions of their nodes are the same up to order (names and edges do not matter); the command line reports the same hash whenever all nodes have a version.
* `C59_violated_step` (Versions.lean): **C59, violated.** The function used in a step of a pipe is edited: no version changes (so `diff` reports nothing, and the cache key of the step is the old one).
* `C59_violated_input` (Versions.lean): **C59, violated.** Only the body of `f` was edited, and the input `x` is reported as edited too.
* `C59_violated_added` (Versions.lean): **C59, violated.** A function `a` using the input `x` is added and nothing else touched: the input `x` is reported as edited.
* `C59_violated_indented` (Versions.lean): **C59, violated.** The source of a function that is defined inside something else is indented and cannot be parsed: a comment changes the version.
* `C59_violated_none` (Versions.lean): **C59, violated.** A node whose source is not available is reported as both added and removed although nothing was changed, and the hash of the dataflow is not computed.
* `C59_violated_edges` (Versions.lean): **C59, violated.** A function makes two nodes; exchanging their inputs in the graph (for instance `@parameterize(**SETTINGS)` after editing the module variable `SETTINGS`) leaves all versions.

*Status:* Proved for nodes made from functions whose source parses and whose versions exist (printing and hashing assumed injective). Violations: editing the function of a pipe step changes no version (stale cache), inputs are reported edited with their first consumer, unparsable (indented) source, nodes without version, edited decorator arguments held in variables.

### C60 What a stack of decorators means — partial

*Modelled:* `NodeTransformLifecycle.__call__` (attaching), `get_node_decorators`, `resolve.resolve`, `filter_config` and `resolve_nodes`; a single decorator is arbitrary (its validation, declared configuration and its method are parameters). Specification `applyAll`: apply the decorators of a list one by one; `SameDecorators`: same order within each kind.
*Proof:* Attaching is characterised exactly (accepted iff all valid and at most one creator and one expander; then every kind has its decorators in order), by induction on the stack; stage loops by induction; a list sorted by kind is the concatenation of its kinds. Negations by evaluation.

* `C60_interleaving` (Stack.lean): **C60, interleaving.** Decorators of different kinds can be stacked in any relative order: whether the function can be built, and the nodes it becomes, depend only on the order among decorators of the same kind.
* `C60_one_by_one` (Stack.lean): **C60, one by one.** For a function whose decorators are stacked in the order resolve, create, inject, expand, transform, decorate (any other order can be brought into this one, `C60_interleaving`) and that Python accepts, the nodes are what one gets by applying the decorators one after the other, the innermost first, each to the result of the ones below.
* `C60_config` (Stack.lean): **C60, configuration.** A key of the configuration that no decorator of a function declares has no influence on what the function becomes (or on whether building fails).
* `C60_resolve_partial` (Stack.lean): **C60, `@resolve` (partial).** A decorator made by `@resolve` from the configuration acts like the same decorator written in its place, provided that it is valid for the function and that no decorator of the same kind is stacked above it (nor below it, if it is exclusive, as `@schema.output`); then the function becomes the same nodes, if the resolvers do not drop it. Missing: order (`C60_violated_order`, `C60_violated_exclusive`), validation (`C60_violated_validate`), functions that are dropped (`C60_violated_dropped`).
* `C60_violated_order` (Stack.lean): **Violation.** A transformer made by `@resolve` is applied after a transformer that is written above it.
* `C60_violated_exclusive` (Stack.lean): **Violation.** `@schema.output` cannot be written above `@tag`, although it can be written below it, and although it is accepted in that place when it is made by `@resolve`.
* `C60_violated_validate` (Stack.lean): **Violation.** A decorator made by `@resolve` is not validated: it is applied to a function that the same decorator refuses when it is written directly.
* `C60_violated_dropped` (Stack.lean): **Violation.** For a function that the configuration excludes, the configuration that `@resolve` asks for must be there nevertheless; and without the power-user key the error is a `KeyError`.

*Status:* Interleaving, one-by-one reading and configuration are proved for all stacks; for @resolve only if its decorator is valid, nothing of the same kind is stacked above and the function is not excluded. Violations: @resolve'd decorators are applied last in their kind, are never validated, and need their configuration even for excluded functions. `@schema.output` allows no other decorator of its kind below it, unless it is made by `@resolve` (C60_violated_exclusive).

### C61 Which data adapter is used — partial

*Modelled:* `register_adapter`, `applies_to` of loaders and savers (with `custom_subclass_check` of `Model/Types` and `Union` formation), `resolve_adapter_class`, `AdapterFactory.validate`, attribute access on `load_from`/`save_to`, `LoadFromDecorator.validate` and the cache's `search_data_adapter_registry`. Specification `Latest`/`Earliest` on the list of registrations and the subclass relation.
*Proof:* The two registries are filters of the list of registrations (induction); the loop over reversed classes is two filters; its head is `find?` on the reversed list, i.e. `Latest`. Soundness from `customCheck_sound`. Negations by kernel evaluation.

* `C61_loader` (Adapters.lean): **C61, loaders.** For a parameter whose type is a class, `load_from.<key>` and `from_.<key>` use the loader registered last under this name among those that make a subclass of it; only if there is none, the one registered last that makes anything; and the arguments must fit that loader. Otherwise there is an error.
* `C61_saver_partial` (Adapters.lean): **C61, savers (partial).** For a value whose type is a class, `save_to.<key>` and `to.<key>` use the saver registered last under this name among those that take a superclass of it, with arguments that fit it. Missing: savers that take anything, which are not last in line (`C61_violated_any_saver`).
* `C61_register` (Adapters.lean): **C61, new registrations.** Whatever the types: an adapter that is registered under another name, that cannot load, or that does not make values of the type changes nothing; one that does is used from then on (with arguments that fit).
* `C61_loader_sound_partial` (Adapters.lean): **C61, loaded values have the type (partial).** Also for annotations that are not classes: unless the chosen loader makes anything, it declares a type all values of which are values of the parameter's type. Missing: as for `C49_sound_partial`.
* `C61_saver_sound_partial` (Adapters.lean): **C61, saved values are accepted (partial).** For all annotations: every value of the node's type is a value of a type that the chosen saver declares. Missing: as for `C49_sound_partial`.
* `C61_cache_partial` (Adapters.lean): **C61, the cache (partial).** The saver and the loader that the cache uses for a format and a value of a class are those registered *first* under this name that declare a superclass of the class. Missing: they are not those that `to` and `from_` use, which are registered last (`C61_violated_cache`).
* `C61_violated_any_saver` (Adapters.lean): **Violation.** Adapters for `Any` are last in line for loading, but not for saving.
* `C61_violated_arguments` (Adapters.lean): **Violation.** The arguments do not take part in the choice: after registering another loader for the type under the same name, a use of the first one, with its arguments, is refused.
* `C61_violated_cache` (Adapters.lean): **Violation.** A user's adapter replaces the one that comes with the library everywhere except in the cache.
* `C61_violated_cache_loader` (Adapters.lean): **Violation.** The cache takes a loader that declares a superclass: a cached `MyDict` comes back as a `dict`, although no loader makes a `MyDict` (and `from_` refuses).
* `C61_violated_annotated` (Adapters.lean): **Violation.** The decorator accepts a parameter `List[Annotated[int, …]]`, but building the graph then fails.

*Status:* Exact for classes (loaders; savers not registered for Any), sound for all annotations as far as C49 is. Violations: Any-savers are not last in line, arguments take no part in the choice, the cache takes the first registered adapters and loaders of a superclass, nested Annotated passes the decorator but fails when building.

### C62 Runtime type checking of inputs and outputs — partial

*Modelled:* `check_instance` branch by branch over annotations (classes, subscripted generics, `Union`, `X | Y`, `Literal`, `Annotated`, others) and values (objects, collections, dictionaries), with the exceptions of `isinstance` and of missing arguments; the adapter as hooks of `Model/Hooks`. Specification `HasTy`: what it means for a value to have a type.
*Proof:* Mutual induction over annotations, separately for acceptance, rejection and totality; the run-level theorems instantiate the invariant and simulation principles for executions with adapters. Negations by kernel evaluation.

* `C62_exact_partial` (CheckInstance.lean): **C62** (exactness): for annotations made of classes, `Any`, unions, literals, lists, sets, tuples of any length and dictionaries, nested in any way, the check never raises and accepts a value exactly if every part of it has the annotated type. What is missing for the full claim: tuples of fixed length (`C62_violated_tuple`), other generic types (`C62_violated_raises`) and `Annotated` (`C62_violated_annotated`).
* `C62_accepts_partial` (CheckInstance.lean): **C62** (soundness): for all annotations whose arguments are the types of the items or of keys and values, including ones the check cannot decide and `Annotated`: what it accepts has the annotated type.
* `C62_rejects_partial` (CheckInstance.lean): **C62** (no false alarm): for the same annotations without `Annotated`: what it rejects does not have the annotated type (it may raise instead of answering, see `C62_violated_raises`).
* `C62_stops_partial` (TypeChecker.lean): **C62** (an ill-typed argument stops the node): if an argument does not have the type of its parameter (and the annotation is one the check can decide), the function is not called and an exception propagates, whatever other adapters there are.
* `C62_run_partial` (TypeChecker.lean): **C62** (runs with the checker): whatever other adapters there are, if the run succeeds, every function was called with arguments of the annotated types, and every value that was computed and kept has the annotated type; if the run fails, this still holds of all calls before the last one.
* `C62_transparent_partial` (TypeChecker.lean): **C62** (no interference): if, without the checker, no function fails, every function is called with arguments of the annotated types and returns a value of the annotated type, then the run with the checker gives the same result, as long as all annotations are ones the check can decide.
* `C62_violated_tuple` (TypeChecker.lean): **C62 is violated**: `Tuple[int, str]` rejects `(1, "a")` and accepts `(1, 2)`, `Tuple[int]` accepts `(1, 2)`, and `Tuple[()]` cannot be checked at all.
* `C62_violated_raises` (TypeChecker.lean): **C62 is violated**: values of the annotated type make the check raise if the annotation is a subscripted generic type and the value is not a list, set, tuple or dictionary with two type arguments: a `frozenset` for `FrozenSet[int]`, a function for `Callable[[int], str]`, a generator for `Iterable[int]`, a dictionary for `Iterable[str]`; likewise `list[int] | None`.
* `C62_violated_annotated` (TypeChecker.lean): **C62 is violated**: `Annotated[t, …]` is never handled as `t`: an `int` makes `Annotated[int, …]` raise, a list makes `Annotated[List[int], …]` raise, and `[1]` is rejected by `Annotated[list, …]`.
* `C62_violated_masks` (TypeChecker.lean): **C62 is violated**: when a function fails, its exception is replaced by the checker's complaint about the result `None`; with `-> Optional[int]` it is not.
* `C62_violated_parallel` (TypeChecker.lean): **C62 is violated**: what a function annotated with `Parallelizable[int]` returns is rejected although it is an iterable of integers, so the checker cannot be used with dynamic execution. (Both classes are protocols, so in Python it is already `isinstance` that raises the `TypeError`.)

*Status:* Exact for Any, classes, unions, literals, lists, sets, variadic tuples and dictionaries nested in any way; sound for all annotations whose arguments are item or key/value types. Violations: fixed-length tuples are compared with their first type only, other subscripted generics and Annotated raise for good values, the exception of a failing function is masked, Parallelizable/Collect are rejected.

### C63 Replacing the body of a function with @does — partial

*Modelled:* `ensure_function_empty` (on an abstraction of bytecode), `map_kwargs`, `test_function_signatures_compatible`, `validate` and the wrapper function of `@does`; signatures as lists of parameters, `inspect.Signature.bind` with keyword arguments as `bindKw`. Specification `doesArg`, `Renaming`, `paramValue`.
*Proof:* Invariant of the renaming loop over the processed part of the mapping; a relational argument (same names, different values) carries acceptance of the dummy arguments over to real calls. Negations by kernel evaluation.

* `C63_callable` (Does.lean): **C63** (what is accepted can be called): if the decorator accepts a function, every legal call of it ends up as a call of the replacing function with arguments that fit its signature, whatever the mapping.
* `C63_arguments_partial` (Does.lean): **C63** (what it is called with): if the mapping is a renaming of parameters, the replacing function gets every mapped parameter under its new name and every other parameter under its own (unless that is a new name of another one, see `C63_violated_dropped`), with the value given or the default, and nothing else. What is missing for the full claim: mappings that are no renamings, see the violations.
* `C63_accepts_partial` (Does.lean): **C63** (what is accepted): for such mappings of existing parameters the decorator accepts exactly the functions that are empty (or only return a constant) with keyword-friendly parameters such that the renamed parameters fit the signature of the replacing function: those without default are supplied, and all are known (or there is a `**kwargs`).
* `C63_violated_twice` (Does.lean): **C63 is violated**: if a parameter is passed on under two names, decorating the function raises a `KeyError`.
* `C63_violated_chain` (Does.lean): **C63 is violated**: if parameters are renamed in a chain (`x` to `a` and `y` to `x`), the result depends on the order in which the names are given: either the replacing function gets `y` although it was renamed, or it does not get `x`.
* `C63_violated_dropped` (Does.lean): **C63 is violated**: a parameter whose name is taken by a renamed one is dropped silently: with `x="y"`, nobody gets the value of `x`.
* `C63_violated_not_empty` (Does.lean): **C63 is violated**: a function that returns a constant counts as empty, and what it returns is ignored.

*Status:* Callability holds for all mappings; the arguments are right for all renamings (including permutations). Violations: a parameter under two names raises KeyError, chains of renamings pass stale or lose arguments depending on order, a parameter whose name is reused is dropped silently, functions returning a constant count as empty.

### C64 Hooks around runs and construction, and graph validators — partial

*Modelled:* The run-level half of `LifecycleAdapterSet` (deduplication, hooks in order, validators), `Driver.__init__`, `execute`, `raw_execute`, `materialize`, `AsyncDriver.raw_execute`/`execute`, `base_execute_task` with their try/except/finally structure, and `GraphExecutionHook.pre_graph_execute`. The state of the world is a type parameter; graph, run, hooks, validators and builder are arbitrary functions on it; every call is recorded in a log. Specification: the expected log (`toldBefore`, `toldAfter`, …, `allAccepted`, `rejections`).
*Proof:* Case analysis over every exit of the try blocks, with an induction over the list of hooks and of validators; `execution_path` from the exactness of the plan (C11) and the completeness of the calls of a successful run. Negations by kernel evaluation.

* `C64_execution_path_partial` (ExecutionPath.lean): C64, `execution_path` (partial: without overrides the path would be exact, see `C64_violated_execution_path`). Every function that a run calls, successful or not, is on the path the hook was told; and every node of the path is a function that a successful run does call, unless it was overridden.
* `C64_violated_execution_path` (ExecutionPath.lean): C64 is violated for overridden nodes: the hook is told that `base` will be executed, but it is not.
* `C64_execute_partial` (RunHooks.lean): C64 (partial: adapters that are pairwise different, hooks that return, and exceptions that derive from `Exception`). `execute` tells every adapter about the run before anything is computed, computes, builds the result if there is a builder, and tells every adapter about the end, each exactly once and in the order of the adapters, under the same run id; what the adapters are told afterwards is what the caller of `execute` gets; and that is what the run gives without any hook in the world `t` the hooks left.
* `C64_returns_partial` (RunHooks.lean): C64. When `execute` returns, whatever the hooks do: every adapter was told before and after, in order, once each, with success and the very value that is returned; and the value is what the run gives without hooks in the world `t`.
* `C64_raises_partial` (RunHooks.lean): C64. When `execute` raises, the exception comes from where the history says: a `pre_graph_execute` hook, and then nothing was computed and no adapter is told about the end; or the run or the builder, and then every adapter is told about the end, truthfully if the exception derives from `Exception`; or a `post_graph_execute` hook.
* `C64_raw_execute_partial` (RunHooks.lean): C64 for `raw_execute` and for the asynchronous driver (partial: adapters that are pairwise different, hooks that return). What is said after the run is right for every exception, also `KeyboardInterrupt`, except that only those deriving from `Exception` are handed over.
* `C64_async_partial` (RunHooks.lean): C64 for the asynchronous `execute` (partial: as above): it returns what the run gives without hooks, and the adapters are told about the outcome of the computation, before the result is built.
* `C64_task_partial` (RunHooks.lean): C64 for the tasks of the task-based executor (partial: adapters that are pairwise different, hooks that return, exceptions that derive from `Exception`).
* `C64_validators_partial` (RunHooks.lean): C64, validators (partial: the adapters are pairwise different). Everything that happens during the validation of a graph is that validators are asked. The graph is accepted only if every validator of nodes accepted every node and every validator of graphs accepted the graph, each asked exactly once; the exception lists exactly the nodes that were rejected with the messages given (for rejections of the whole graph: the messages given); a rejection without a message gives a `TypeError`; any other exception was raised by a validator.
* `C64_construct_partial` (RunHooks.lean): C64, construction (partial: the adapters are pairwise different). A driver is only made if every `pre_do_anything` hook returned, then every validator accepted, then every `post_graph_construct` hook was given the graph and returned; nothing else happens.
* `C64_materialize_partial` (RunHooks.lean): C64 for `materialize` (partial: the graph could be made, the adapters are pairwise different, the hooks return, the exceptions derive from `Exception`). The adapters are told about the end, each once; the report is what the caller gets (`results` being the additional variables). Either the validation of the graph raised, and then nothing was computed; or every validator accepted, every adapter was given the graph and told about the run before it was computed, and the results are the requested ones among those computed.
* `C64_violated_interrupt` (RunHooks.lean): C64 is violated by an exception that does not derive from `Exception`: the adapters are told that the run succeeded.
* `C64_violated_task_interrupt` (RunHooks.lean): The same for a task.
* `C64_violated_pre_raises` (RunHooks.lean): C64 is violated when a `pre_graph_execute` raises: an adapter that was told about the beginning of the run is never told about its end.
* `C64_violated_post_raises` (RunHooks.lean): C64 is violated when a `post_graph_execute` raises: its exception takes the place of the result, and of the exception, of the run, and the adapters after it are not told.
* `C64_violated_equal` (RunHooks.lean): C64 is violated by adapters that are equal (`==`), for instance two dataclass instances with the same fields: only the first is told anything.
* `C64_violated_async_build` (RunHooks.lean): C64 is violated by the asynchronous driver: the adapters are told that the run succeeded although the caller gets the exception of the result builder.
* `C64_violated_materialize_unbound` (RunHooks.lean): C64 is violated by `materialize` when there is nothing to compute or the graph cannot be extended: with an adapter that wants to be told about the end of runs, the caller gets an `UnboundLocalError` instead of the real exception, and the adapter is not told; without it the real exception is raised.
* `C64_violated_materialize_validators` (RunHooks.lean): C64 is violated by `materialize` when a validator rejects the graph: the adapters are told about the end of a run of which they were not told the beginning.
* `C64_violated_no_message` (RunHooks.lean): C64 is violated by a validator that rejects without a message: the exception does not name the rejected node.

*Status:* Holds for pairwise different adapters whose hooks return, for exceptions deriving from Exception. Violations: KeyboardInterrupt is reported as success by execute, materialize and tasks; a pre hook that raises leaves earlier adapters without an end; a post hook that raises hides the outcome; equal adapters are called once; async execute reports success before the builder fails; materialize raises UnboundLocalError instead of the real error, and reports the end of runs that never began; a rejection without message raises TypeError; overridden nodes are on execution_path.

### C65 The deprecated caching adapters do not change results and skip what was computed — partial

*Modelled:* `CacheAdapter` and `DiskCacheAdapter` as lifecycle adapters of the model of node execution (C13): `run_to_execute_node`, `run_after_node_execution`, the choice of nodes, the key, the remembered sources and the history; `evict_all_except` with the tags of diskcache. The hash of the source is an arbitrary function of the node, the cache a dictionary keyed by hash and argument values; files, pickling, digests (taken as free of collisions), `run_after_graph_execution` and logging are left out. Specification: the plain run, and a function `code` from source and values to outcomes.
*Proof:* One step keeps the cache right, keeps results, records the result and invokes the function only without one; lifted to runs by the refinement principle for runners (`executeWith_matches`), and for the history by the invariant principle (`executeWith_preserved`). Eviction by induction over the history. Negations by kernel evaluation.

* `C65_shelve_partial` (LegacyCache.lean): C65 for `CacheAdapter` (partial: no optional parameters, functions told apart by their source, one graph per adapter). A run with the adapter has the outcome of a run without: the same values or the same exception, after the same nodes. Whatever happens, what the cache holds afterwards is right.
* `C65_disk_partial` (LegacyCache.lean): C65 for `DiskCacheAdapter` (partial: no optional parameters, functions told apart by their source). It may have been used with other graphs before.
* `C65_shelve_repeat_partial` (LegacyCache.lean): C65, with `CacheAdapter` (partial as above): after a successful run, the same run once more gives the same values, and the functions it invokes are those that were not selected for caching (without a selection, all are cached) or whose result was `None`.
* `C65_disk_repeat_partial` (LegacyCache.lean): C65, with `DiskCacheAdapter` (partial as above): the same run once more.
* `C65_shelve_later_partial` (LegacyCache.lean): C65 (partial as above): nor does a later run, of other nodes or on other inputs, invoke a cached function on arguments on which the first run had it; whether the later run succeeds or not.
* `C65_disk_later_partial` (LegacyCache.lean): C65, with `DiskCacheAdapter` (partial as above): a later run.
* `C65_evict_partial` (LegacyCache.lean): C65, for `evict_all_except` (partial: the version to keep was computed exactly once per node, see the violation below). It returns, and an entry remains exactly if it was there and is a version to keep.
* `C65_evict_rest` (LegacyCache.lean): C65, for `evict_all_except`, without knowing how often the versions were computed: if it returns, nothing remains but versions to keep, the history lists the versions kept, and the number returned is how many the history lost.
* `C65_disk_history` (LegacyCache.lean): C65, for `DiskCacheAdapter`: a run of any graph, successful or not, keeps the history complete, so that `evict_all_except` knows about everything in the cache.
* `C65_violated_evict` (LegacyCache.lean): C65 is violated by `evict_all_except`: of a version that was computed for two inputs, only one occurrence is taken off the list (h_diskcache.py:30), so the version to keep is evicted; although nothing was edited, the cache is empty afterwards.
* `C65_violated_evict_edit` (LegacyCache.lean): C65 is violated by `evict_all_except`: after an edit of a function it raises `ValueError` instead of evicting the old version, unless the new one was run (h_diskcache.py:30).
* `C65_violated_same_source` (LegacyCache.lean): C65 is violated: nodes made from one function, like the extractors of `@extract_fields` (expanders.py:829-845) and `@extract_columns` (expanders.py:672-690), have the same source. The key tells neither the node nor the field, so one node gets the value of the other; with both adapters.
* `C65_violated_optional` (LegacyCache.lean): C65 is violated: the key has the values of the arguments but not their names (default.py:435, h_diskcache.py:111). With optional parameters `a=5` is mistaken for `b=5`.
* `C65_violated_two_graphs` (LegacyCache.lean): C65 is violated by `CacheAdapter` used for two graphs: the source remembered from a run of the one graph is taken for that of a node of the other when the result comes from the cache (default.py:410-415), which overwrites a right entry by a wrong one. First the one version is run, then the other, then the first from the cache: now its value is stored for the other version.
* `C65_violated_failed_once` (LegacyCache.lean): C65 is violated by `DiskCacheAdapter`: a function that raised once is never cached for these arguments, since the `None` stored then stays (`cache.add`, h_diskcache.py:138). Here `area` raises for want of a file, and then is invoked each time.

*Status:* Holds if the source of a function and the values of its arguments tell what it computes, parameters are required and (CacheAdapter) one graph per adapter; results None are recomputed. Violations: nodes generated from one function share results; optional arguments are mixed up; a CacheAdapter shared by two graphs stores a result under the other graph's source; DiskCacheAdapter never caches a call that raised once; evict_all_except evicts a kept version computed twice and raises ValueError for a version that was not run.

### C66 `CachingGraphAdapter` loads a file exactly when nothing above was recomputed — partial

*Modelled:* `execute_node`, `_write_cache`, `_read_cache`, `_get_empty_expected_type` and `build_result` of `CachingGraphAdapter` as a runner of the model of execution; readers and writers are arbitrary, a writer may fail and may leave a file. The files are a dictionary from file names to contents. Specification: an inductive set of functions to recompute (forced or without file, and everything below), the graph in which the others are replaced by loading their files, and `Den` for the right values.
*Proof:* Calls come after the calls they depend on (`executeWith_ordered`, also in failing runs), so that the marks kept while running agree with the inductive set; an execution with adapters refines the plain run of the graph with replaced functions (`executeWith_replaced`); two replacements that agree on the calls made give the same run (`replaced_congr`). Negations by kernel evaluation.

* `C66_rule_partial` (FileCache.lean): **C66 (the rule)**: with nothing left over from an earlier run, the run is the ordinary run of the graph in which the cached functions that are neither forced nor without a file nor below such a one are replaced by loading their files. Exactly the other functions are invoked. The files of recomputed functions hold what was written, all others are as before.
* `C66_same_partial` (FileCache.lean): **C66 (same inputs)**: as long as the inputs, overrides and code stay the same and values can be stored, runs give what they give without the adapter, whatever was forced or left over from earlier runs; also failing runs leave only files that hold the values of their nodes.
* `C66_again_partial` (FileCache.lean): **C66 (again)**: the same run again, with nothing forced, has the same outcome and invokes no cached function; the files stay as they are.
* `C66_edit_partial` (FileCache.lean): **C66 (after an edit)**: if the files hold values of the graph before its code was edited, the edited functions are cached and are forced, and nothing is left over from an earlier run, the run gives what the edited graph gives without the adapter, and the files of the functions it called hold their new values.
* `C66_violated_inputs` (FileCache.lean): **C66 violated (other inputs)**: a run with other inputs gets the values of the first run.
* `C66_violated_part` (FileCache.lean): **C66 violated (part of the graph)**: after a run with a forced node that did not ask for what depends on it, a later run loads the old value of the dependent node, beside the new value it was not computed from.
* `C66_violated_uncached` (FileCache.lean): **C66 violated (forcing what is not cached)**: forcing a function that is not cached does not recompute what depends on it.
* `C66_violated_leftover` (FileCache.lean): **C66 violated (left over)**: after an execution whose results were not built (`raw_execute`), a cached function is invoked again although it has its file and nothing is forced or was recomputed.
* `C66_violated_broken` (FileCache.lean): **C66 violated (broken file)**: what a writer that failed left in the file counts as the cached value: a new adapter fails to load it, where it would have computed the value without the file.

*Status:* The rule holds if nothing is left over from a run whose results were not built, and files of different nodes differ. Violations: after raw_execute (or a failed run) the marks stay and cached functions are called needlessly; other inputs get the old values; a run that forces a node but does not ask for its dependents leaves their files stale; forcing a function without the tag has no effect on its dependents; a failed write leaves a broken file that is loaded later.

### C67 Result builders return every output under its name — partial

*Modelled:* `pandas_index_types`, `check_pandas_index_types_match`, `build_result` and `build_dataframe_with_dataframes` of the pandas builders and `build_result` of `NumpyMatrixResult`. An output is described by what the builders look at (its kind, columns, kind of index, whether it is list-like); the call of the constructor of pandas is the result, so the alignment of indexes is not modelled. Specification: the list of all columns in order, existence of exactly one kind of index, the entries of a matrix.
*Proof:* Induction over the outputs with the columns so far; strings without dots are told apart by their prefix up to the first dot; the numbers of keys of the dictionaries of index types are related to the set of kinds by counting lists without repetition. Negations by evaluation.

* `C67_table_partial` (ResultBuild.lean): **C67 (table)**: with frames among the outputs, unless a frame has a column named like an earlier output or column, the result has exactly the columns of all outputs in the order of the request, frames prefixed by their name; if two columns would have the same name an error is raised.
* `C67_plain` (ResultBuild.lean): **C67 (no frames)**: without frames among them, the outputs are the columns of the table, or the entries of its only row if none of them is a list or has an index; a frame that is the only output is returned as it is.
* `C67_no_dots` (ResultBuild.lean): **C67 (ordinary names)**: if no output has a dot in its name and no frame repeats a column, a request with frames never fails and nothing is lost: the result has exactly the columns of all outputs.
* `C67_strict` (ResultBuild.lean): **C67 (strict)**: the strict builder raises unless some output has an index and all that have one have the same kind of index; otherwise it returns what the other builder returns.
* `C67_numpy_partial` (ResultBuild.lean): **C67 (matrix)**: with at least one output that has a length, if all those have length `n` and (with a number among the outputs) `n` is not 1, the result is the matrix with the outputs as columns, numbers repeated; if two lengths differ an error is raised.
* `C67_violated_overwrite` (ResultBuild.lean): **C67 violated**: a frame that comes after a column of the same name silently replaces it.
* `C67_violated_scalars` (ResultBuild.lean): **C67 violated**: numbers alone give a matrix without entries.
* `C67_violated_one_row` (ResultBuild.lean): **C67 violated**: with vectors of length one, a number raises.

*Status:* Tables: proved unless a DataFrame comes after a column of the same name (`sub.x` before `sub` with column `x`); then the earlier column is silently replaced (C67_violated_overwrite). Matrices: proved with at least one vector and, if there are numbers, vectors not of length 1; numbers alone give a matrix without entries, a number beside vectors of length 1 raises TypeError.

### C68 `@with_columns` adds the selected columns — partial

*Modelled:* `with_columns_base.__init__`, `_default_inject_parameter`, `validate_dataframe`, `contains_duplicates`, `inject_nodes`, and `get_initial_nodes`, `chain_subdag_nodes` of the pandas plugin, with `prune_nodes` (C42), `add_namespace` (C40) and `reassign_inputs` (C57). The dataframe library is a parameter: two partial functions, picking a column and assigning columns. The result contains the decorator afterwards, because the code assigns `self.select`. Specification: a graph built from the given functions alone, its values for inputs taken from the dataframe and the surrounding graph, and the call of the decorated function with the extended frame.
*Proof:* A refinement for sets of names closed under parameters: functions copied under other names have the values they have in the separate graph, by induction over the derivation in both directions; what the selection needs was kept, by the theorem about pruning; the node `_append` and the rewired parameter are computed out. Negations by evaluation of two builds.

* `C68_value_partial` (WithColumns.lean): **C68, the columns are added (partial).** Let `df` be the value of the dataframe parameter. The value of a function decorated with `@with_columns` is what it returns when that parameter is `df` with the selected columns added or replaced (and the other parameters are unaffected); the value of a selected column is the column of `df` if it is one of `columns_to_pass`, and otherwise what a separate driver computes for the function of that name, given the columns of `df` and the values of the surrounding graph. Missing: names that clash (`ColumnNames`), repeated selection, and dataframes that lack a passed column (then `given` does not exist; `C68_missing_column`).
* `C68_no_frame` (WithColumns.lean): **C68, no dataframe, no value.** Without a value for the dataframe parameter the decorated function has none.
* `C68_missing_column` (WithColumns.lean): **C68, a passed column is missing.** If a column of `columns_to_pass` that is needed for the selected columns is not in the dataframe, the decorated function has no value (the exception of the column node ends the run).
* `C68_pruned` (WithColumns.lean): **C68, only what is needed.** With a selection, a function given to the decorator becomes a node (`namespace.name`) of the driver iff the separate driver needs it for one of the selected columns.
* `C68_selection` (WithColumns.lean): **C68, which columns are added.** The columns added are those of `select`; without `select`, all of `columns_to_pass` and all functions that return a column.
* `C68_accepted` (WithColumns.lean): **C68, what is accepted.** The decorator is accepted iff there is a dataframe parameter that the nodes of the function need, `columns_to_pass` (not empty) or `on_input` is given, no two columns or functions have the same name, all selected columns exist, and there is at least one column or function (and, with `select`, one selected).
* `C68_arguments` (WithColumns.lean): **C68, arguments.** The decorator can be created iff `pass_dataframe_as` is not used and not both of `columns_to_pass` and `on_input` are given.
* `C68_violated_select` (WithColumns.lean): **C68, violated: a second driver.** A decorator without `select` is built into a driver. Building a second driver with another configuration (`b` in place of `a`) then fails, though it would succeed with a fresh decorator, and adding `b` while `a` remains adds no column `b`.
* `C68_violated_rebuild` (WithColumns.lean): **C68, violated: the same driver again.** With the very same functions the second driver lacks a node (`f.helper`) that the first one has, for every order of the selected nodes.

*Status:* Proved for names that do not clash (no function, column or parameter called like the dataframe parameter or `_append`, no reference to the namespace from outside) and a selection without repetition. Violated: without `select`, the selection of the first driver is stored in the decorator and used for every later driver (C68_violated_select, C68_violated_rebuild).

### C69 The arguments of `@check_output` mean what they say — partial

*Modelled:* All thirteen classes of `AVAILABLE_DEFAULT_VALIDATORS` with `arg`, `applies_to`, constructor and `validate`, `resolve_default_validators` with its two loops, and `check_output.get_validators`, on top of `transform_node` (C37). Values are numbers (rational), strings, series of such with missing entries, and `None`; exceptions of comparisons are kept. The subclass relation is a parameter. Not modelled: pandera and dask, arguments of the wrong form, rounding. Specification: `Promise`, what an argument says about a value, in terms of the numbers in it (the mean by n * a = sum, the variance by the formula with the sum of squares) and occurrence of strings as a = x ++ c ++ y.
*Proof:* For every argument the verdict is equivalent to the promise: induction over the entries of the series; the two formulas for the variance agree by algebra in the rationals; the substring search by induction over the string. Resolution by a case distinction over argument and type and induction over the arguments. The run-level theorem instantiates C37; the names of the nodes cannot clash because no default name ends in a digit.

* `C69_accepted` (Validators.lean): **C69, what is accepted.** `@check_output` with some arguments can be applied to a function iff every argument can be used for its declared type and the importance is "warn" or "fail" (which is not looked at without arguments); there is one validator per argument then, in order, with that importance.
* `C69_verdict` (Validators.lean): **C69, verdicts.** If a validator of `@check_output` gives a verdict on a value, it is positive iff the value is as the argument promises. (Only a series is expected from a function declared to return one and vice versa.)
* `C69_no_raise` (Validators.lean): **C69, no exception.** A validator gives a verdict on every value that is suited to the argument: it does not raise.
* `C69_fail` (Validators.lean): **C69, importance "fail".** In a graph with the nodes of `@check_output(importance="fail", ...)`: a value of the function is a value of the undecorated function that is as every argument promises; a value of the undecorated function that is (and is suited to the arguments) is the value of the function; if it is not, the function raises `DataValidationError`.
* `C69_warn_partial` (Validators.lean): **C69, importance "warn" (the default; partial).** The value of the function is that of the undecorated function, whatever the verdicts, provided that the value is suited to the arguments. Missing: a value that is not suited (`None`, say) makes the validator raise and fails the run (`C69_violated_warn`).
* `C69_violated_docs` (Validators.lean): **C69 violated, documentation.** The documented example of `@check_output` (`data_type=np.int64, data_in_range=(0, 100)`, validation.py:160-166) is refused, whatever the function is declared to return.
* `C69_violated_warn` (Validators.lean): **C69 violated, warnings.** With importance "warn" a bad value is to be passed on with a warning; but if the function returns `None`, the comparison raises and the run fails.

*Status:* Importance "fail" proved in full (C69_fail) for the ten default arguments; numbers are rational. Importance "warn" for values the validators can look at; violated otherwise: a function that returns `None` fails the run although the check has importance "warn" (C69_violated_warn). The documented example is refused (C69_violated_docs).

### C70 `@dataloader` and `@datasaver`: the data, the metadata and the caching behaviour — partial

*Modelled:* `validate` and `generate_nodes` of both decorators, branch by branch; types enter through the arguments of a tuple type and the test for `dict`. Caching composes with the model of `resolve_behaviors` (C34).
*Proof:* The values by C01's denotation of the two nodes; tags by evaluation of the dictionary updates; caching by C34_follow and C34_precedence_partial, whose hypotheses follow from the tags.

* `C70_accepted_partial` (DataFns.lean): **C70, what is accepted (partial).** A function whose annotation is a type (or missing) can be a `@dataloader` iff it is annotated with a tuple of a type and `dict`, and a `@datasaver` iff it is annotated with `dict`. Missing: annotations that are texts (`C70_violated_postponed`).
* `C70_loader` (DataFns.lean): **C70, the values of a loader.** In a graph containing the nodes of a `@dataloader`: the node of the function has exactly the first component of what the function returns; what it returns, with the metadata, is the value of the node `function.loader`.
* `C70_saver` (DataFns.lean): **C70, the value of a saver.** In a graph containing the node of a `@datasaver`, it has exactly the value of the undecorated function.
* `C70_tags` (DataFns.lean): **C70, tags.** A query for loaders or savers finds the generated nodes: both nodes of a `@dataloader` are tagged as loaders for the function, the one with the metadata as such; the other tags of the function stay with the node that calls it.
* `C70_nodes` (DataFns.lean): **C70, the nodes.** Of the two nodes of a `@dataloader`, the one called `function.loader` has the type and the dependencies of the function, the one of the function itself has the type of the data and depends on the other only: downstream functions are checked against the type of the data.
* `C70_cache_partial` (DataFns.lean): **C70, caching (partial).** If the nodes of a `@dataloader` are nodes of a graph (not in a namespace), both get the same caching behaviour, namely the one that the documented order of precedence gives for the function: what is asked for its name, else the default for loaders. Missing: `@dataloader` in a `@subdag` (`C70_violated_subdag`).
* `C70_violated_postponed` (DataFns.lean): **C70 violated, postponed annotations.** Under `from __future__ import annotations` the same functions, whose types are `tuple[int, dict]` and `dict`, are refused by both decorators.
* `C70_violated_subdag` (DataFns.lean): **C70 violated, subdag.** The loader is in a `@subdag` called `sub`: its node is `sub.load`. `with_cache(recompute=["sub.load"])` asks for RECOMPUTE for it, but both of its nodes get DEFAULT: the tag names the function without the namespace.

*Status:* Values and tags proved in full. Acceptance proved for annotations that are types: under `from __future__ import annotations` both decorators refuse every function (C70_violated_postponed). Caching proved outside subdags: in a `@subdag` the tag names the function without the namespace, and the behaviour asked for is overwritten by the default (C70_violated_subdag).

### C71 `@extract_columns` exposes exactly the columns of the dataframe — partial

*Modelled:* `extract_columns`: the check of the arguments, `df_generator` with the filling loop and `fill_with_scalar` for the three kinds of libraries, and `extractor_fn` with its captured parameter. A dataframe is a library, a height and columns with labels (strings, pairs, numbers).
*Proof:* The filling loop by induction over the columns: what is there stays a prefix, exactly the missing names are added. The nodes by C01's denotation of a function node.

* `C71_frame_partial` (ExtractColumns.lean): **C71, the dataframe (partial).** In a graph containing the nodes of an `@extract_columns`, without a fill value the node of the function has the value of the undecorated function, whatever it is. With a fill value, and a dataframe of a library that adds columns in place as the function's value, it is that dataframe with exactly the missing columns added at the end, each repeating the fill value. Missing: columns given with documentation (`C71_violated_documented`) and polars (`C71_violated_polars`).
* `C71_column_partial` (ExtractColumns.lean): **C71, the columns (partial).** In a graph containing the nodes of an `@extract_columns`, the node of a column (given with or without documentation) has exactly the value of the column of that name in the dataframe; if there is none, the node's function raises. Missing: a function called `column_to_extract` (`C71_violated_name`).
* `C71_nodes` (ExtractColumns.lean): **C71, what is generated.** The decorator is refused iff no column is given; otherwise it generates the node of the function and one node per column, in order.
* `C71_violated_documented` (ExtractColumns.lean): **C71 violated, documentation.** With `@extract_columns(("c", "the c"), fill_with=9)` the missing column `c` is not filled: the node `c` raises, although a fill value was given. And with `@extract_columns(("a", "the a"), fill_with=9)`, where nothing is missing, the dataframe gets a column that nobody asked for: it is labelled by the pair.
* `C71_violated_polars` (ExtractColumns.lean): **C71 violated, polars.** With a dataframe of a library that copies, a missing column is not filled: the node of the function itself raises, although it returns a dataframe and a fill value was given.
* `C71_violated_name` (ExtractColumns.lean): **C71 violated, name.** A function called `column_to_extract` returns a dataframe with the column `a`, but the node `a` raises `KeyError`.

*Status:* Proved for columns given by name and libraries that add columns in place; without fill value for all. Violated: with `fill_with`, a column given with documentation is not filled and a column labelled by the pair is added to the dataframe (C71_violated_documented); with polars the run raises AssertionError instead of filling (C71_violated_polars); a function called `column_to_extract` (C71_violated_name).

### C72 `@parameterize_extract_columns` names the columns of each parameterization — partial

*Modelled:* `wrapper_fn`, and the loop of `expand_node` that composes the models of `parameterize` (C39) and `extract_columns` (C71).
*Proof:* Induction over the extracts finds the nodes of the i-th one; C39 gives their arguments and the renaming is by position: with distinct output names the lookup by name is the lookup by position (induction).

* `C72_nodes` (ExtractColumns.lean): **C72, the nodes.** `@parameterize_extract_columns` accepts exactly the extracts that have outputs, and generates exactly the nodes `function__0`, its outputs, `function__1`, its outputs and so on.
* `C72_frame_partial` (ExtractColumns.lean): **C72, the dataframes (partial).** In a graph containing the nodes of a `@parameterize_extract_columns` on a function, the node of the `i`-th extract (called `function__i`) has as value exactly the dataframe the function returns on the arguments the extract asks for (literals, values of sources, ...), its columns called as the extract says, in order; there is no value if the number of columns is another. Missing: `reassign_columns=False` (`C72_violated_reassign`), functions whose body is replaced by `@does` (`C72_violated_does`), misspelled parameters, which are ignored (`C72_violated_misspelled`), and sources that are optional inputs and not supplied.
* `C72_column_partial` (ExtractColumns.lean): **C72, the columns (partial).** The node called as the `j`-th output of an extract has as value exactly the `j`-th column of the dataframe the function returns on the arguments the extract asks for (provided that it has as many columns as outputs were given). Missing: as for `C72_frame_partial`.
* `C72_violated_reassign` (ExtractColumns.lean): **C72 violated, `reassign_columns`.** With `reassign_columns=False` the columns are to keep their names; but they are renamed all the same: with the outputs `("b", "a")` the node `b` is the first column, which the function calls `a`.
* `C72_violated_does` (ExtractColumns.lean): **C72 violated, `@does`.** The body of the function is replaced (its node calculates the dataframe), but the wrapped function is the original one, which returns something else (`None`, here an integer): the node raises.
* `C72_violated_misspelled` (ExtractColumns.lean): **C72 violated, misspelled parameters.** `{"xx": source("u"), "k": value(10)}` for a function without a parameter `xx` is accepted; the source is ignored, and the node depends on `x` instead.

*Status:* Proved for `reassign_columns=True` and functions that are called themselves. Violated: `reassign_columns=False` has no effect (C72_violated_reassign); with `@does` the replaced body is called (C72_violated_does); misspelled parameters are ignored (C72_violated_misspelled).

### C73 Metadata decorators: the tags a node ends up with, what is accepted, and the options that Ray gets — partial

*Modelled:* `validate`, `decorate_node` and `transform_dag` of the five decorators, as decorators of the stack of C60; `select_nodes` is that of C48; identifiers, JSON and the test for dataframes are parameters.
*Proof:* Induction over the stack: each decorator keeps names, dependencies and the mark of nodes that are not final, so that what a target stands for does not change. Keys: splitting at dots is inverse to joining words without dots.

* `C73_tags_partial` (Metadata.lean): A stack of these decorators, applied to the nodes of a function, changes tags only, and the tags that a node ends up with are those that the outermost decorator aiming at it gives, and for the other keys those it had. The statement in full would also speak about stacks that set the tag `hamilton.non_final_node` itself, and about lists of targets with repetitions.
* `C73_accepted_partial` (Metadata.lean): A stack of these decorators is accepted if and only if the tags of `@tag` and the options of `@ray_remote_options` are allowed, `@schema.output` is only used at the bottom and on dataframes, and the names aimed at are names of nodes. The statement in full would also speak about stacks that set the tag `hamilton.non_final_node` itself, about lists of targets with repetitions, and about decorators of other kinds.
* `C73_ray_partial` (Metadata.lean): The Ray adapters read from the tags of a node exactly the options that `@ray_remote_options` gave, provided that the JSON texts are read back as they were written, that no `@tag` bypasses the reserved namespaces and that no `@tag_outputs` gives such tags.
* `C73_violated_order` (Metadata.lean): **Violation (order).** Whether `@schema.output` is accepted depends on where it is written: above a `@tag` it is refused, below it is accepted.
* `C73_violated_outputs` (Metadata.lean): **Violation (`@tag_outputs`).** Tags that `@tag` refuses (reserved, no identifier, no string) are accepted by `@tag_outputs`.
* `C73_violated_ray` (Metadata.lean): **Violation (Ray).** On a function whose nodes depend on each other, `@ray_remote_options` gives its options to the final nodes only: the node that calls the function runs without them.

*Status:* Proved for stacks that do not set the tag `hamilton.non_final_node` themselves and for targets without repetitions; the options of Ray if no `@tag` bypasses the reserved namespaces. `@schema.output` above another of these decorators is refused (C73_violated_order), `@tag_outputs` accepts tags that `@tag` refuses (C73_violated_outputs), the node that calls a function with extracted columns does not get the options of `@ray_remote_options` (C73_violated_ray).

### C74 Schema validation: differences of schemas, and what the validator does with them — partial

*Modelled:* `diff_schemas`, `_diff_mappings`, `human_readable_diff`, `pyarrow_schema_to_json` and the hooks of `SchemaValidator` over schemas of pyarrow (names, texts of types, nullability, metadata); files and warnings are the state. How a dataframe gets its schema is not modelled.
*Proof:* What `_diff_mappings` says is worked out key by key; the entries of the two JSON forms follow from it, and what is read from them by cases. Runs: induction over the nodes, references are kept and warnings only added.

* `C74_empty` (Schema.lean): **C74, equality.** The difference of two schemas is empty if and only if they have the same fields in the same order and, if the metadata are to be checked, the same metadata.
* `C74_entries_partial` (Schema.lean): **C74, entries.** Field names are distinct and none is `__metadata`. If two schemas are not the same, the difference says for every name what has been added, removed, left as it was or changed, attribute by attribute; with `check_schema_metadata` it says for every key of the metadata of the schemas what became of it. Missing: with `check_field_metadata` the metadata of the schemas have to be the same (`C74_violated_field_metadata`); without it, the metadata of a field are compared nevertheless.
* `C74_warn_partial` (Schema.lean): **C74, a difference is told.** The node has a reference schema saved for it, and the schema of its value is another one. With `importance="warn"` the run goes on and a warning names exactly the fields that were added, removed or changed, with the changed attributes and their values, and the metadata of the node if they have changed; with `importance="fail"` it raises `RuntimeError`. Missing: metadata of fields are not checked; either the metadata of the schemas are checked or those of the node have changed (`C74_violated_unchanged_node`); a changed attribute has a current value that is true for Python (`C74_violated_nullable`).
* `C74_outcomes` (Schema.lean): **C74, one node.** A value that is no dataframe changes nothing. With `check=False` the schema is saved, whatever was there. With `check=True`: without a reference, `must_exist` raises and otherwise the schema is saved; with a reference that is the same, nothing happens; with another one, `importance="fail"` raises, and `importance="warn"` raises or warns once and leaves the reference.
* `C74_silent` (Schema.lean): **C74, silence.** If a run with `check=True` ends without an error and without a warning, then the value of every node with a reference schema has that schema.
* `C74_rerun_partial` (Schema.lean): **C74, a second run.** The names of the nodes are distinct and have no dot. After a run that records their schemas, a run with `check=True` over the same results, in whatever order and with whatever of the other settings, passes without a warning and leaves the references as they are. Missing: names with a dot (`C74_violated_subdag`).
* `C74_violated_unchanged_node` (Schema.lean): **C74 is violated if a node has not changed but its value has.** With the default settings, `importance="warn"` included: if the saved schema has the documentation and the version that the node has now, and the fields of the value are not those of the reference, the run raises instead of warning.
* `C74_violated_warn` (Schema.lean): **C74 is violated** by the default settings: the data have changed, the function has not, and the run raises.
* `C74_violated_nullable` (Schema.lean): **C74 is violated** where a column is no longer nullable: `importance="warn"` raises even if the metadata of the schemas are checked.
* `C74_violated_field_metadata` (Schema.lean): **C74 is violated** with `check_field_metadata`: the function has been edited, the columns are the same, and the run raises.
* `C74_violated_subdag` (Schema.lean): **C74 is violated** by nodes of a subdag: the two nodes `sub.x` and `sub.y` share one file, and the second run fails on results that have not changed.

*Status:* Equality, outcomes for one node and silence are proved in full. The default settings raise AttributeError instead of warning if the data of a node changed and its function did not (C74_violated_unchanged_node, C74_violated_warn); so does a column that is no longer nullable (C74_violated_nullable). `check_field_metadata` raises KeyError if the function was edited (C74_violated_field_metadata). Nodes of a subdag share one file (C74_violated_subdag).

### C75 Execution on a cluster gives the local result — partial

*Modelled:* Two phases. The walk is `execute_subdag` on the same graph with functions that return the reference of their call; the cluster is a state of results with moves that run a call whose arguments are there, or give it up because an argument failed; any sequence of moves. `do_build_result` fetches the outputs.
*Proof:* The invariant of `execute_subdag` on the graph of the walk gives the submitted calls and their arguments; an invariant of the cluster relates results to functional composition on the original graph. No deadlock: induction over the derivation of the reference of a call. Same result: values by composition are unique.

* `C75_submitted_once` (Remote.lean): **C75, what is submitted.** Whether the walk succeeds or not, every call is handed to the cluster at most once, and only calls of functions that are needed and not overridden; each argument is the given value of the parameter, or the reference of the call of the function with the parameter's name.
* `C75_all_submitted` (Remote.lean): **C75, everything needed is submitted.** When the walk succeeds, every needed function that is not overridden has been handed to the cluster.
* `C75_cluster` (Remote.lean): **C75, results on the cluster.** In whatever order the cluster runs the calls: a result is the value of the node by functional composition; a call fails only if its node has no value, with the exception of a needed function that raises it on its right arguments; and every function is run at most once, with its right arguments.
* `C75_progress` (Remote.lean): **C75, the cluster gets there.** Results never change; a move does nothing or ends exactly one more of the submitted calls. And as long as some submitted call has not ended, some move ends one: there is no deadlock.
* `C75_same_result_partial` (Remote.lean): **C75, same result (partial: parameters with reserved names are excluded, see `C75_violated_reserved`).** If the call succeeds locally, then with the adapter the walk succeeds, and once the cluster has ended all the calls, in whatever order, the result fetched is what the result builder makes of exactly the outputs of the local execution.
* `C75_same_failure` (Remote.lean): **C75, same failure.** If the call fails locally, then with the adapter either the walk raises, or, once the cluster has ended all the calls, fetching the result raises; what is raised is always the exception of a needed function on its right arguments, and never is a result returned.
* `C75_violated_reserved` (Remote.lean): **C75 is violated** by a function with a parameter named `node` (or `self`, `method_name`, `execute_lifecycle_for_node`): it is fine locally, but with the Ray adapter the call cannot even be handed over.

*Status:* Submission, soundness on the cluster, absence of deadlock and same failure are proved in full; the same result is proved for functions without parameters named `self`, `method_name`, `node` or `execute_lifecycle_for_node` (with Dask `dask_key_name`): these cannot be handed over (C75_violated_reserved). That Ray and Dask replace references by values and pass exceptions on is assumed.

### C76 Usage telemetry can be switched off, is anonymous and changes nothing — partial

*Modelled:* The state is the flag, the counter and the list of events handed to the sending thread; each kind of call maps its own result and the state to what the caller sees and the new state. Events are values, made from the arguments as in the code. Anonymity is stated as a relation between two processes (non-interference): specification relations say what may differ.
*Proof:* Induction over the sequence of calls with the invariant `sent <= min counter 10`; switched off, every call leaves the state as it is; related calls make equal events (frames, classes, counts), hence related processes send equal sequences.

* `C76_switch` (Telemetry.lean): C76 (1): telemetry is on when the process starts unless the environment variable says no, or it says nothing and the section `DEFAULT` of the configuration file says no.
* `C76_opt_out` (Telemetry.lean): C76 (2): once telemetry is off, at start or by `disable_telemetry()`, no event is sent any more, whatever is done.
* `C76_opt_out_env` (Telemetry.lean): C76 (2), with the switch: a process started with an environment variable that says no sends nothing.
* `C76_config_kept` (Telemetry.lean): C76 (3): the configuration file keeps everything it said if it could be read.
* `C76_limit_partial` (Telemetry.lean): C76 (4), in part: calls of drivers and commands send at most ten events per process. For functions of `hamilton.dataflows` and contributed dataflows this is false (`C76_violated_limit`).
* `C76_transparent_partial` (Telemetry.lean): C76 (5), in part: telemetry does not change what a call returns or raises: calls of drivers and commands in every state, the others while telemetry is on. Switched off, the others raise (`C76_violated_dataflow`, `C76_violated_contrib`).
* `C76_anonymous_partial` (Telemetry.lean): C76 (6): what is sent says nothing about the user's names, values and code: two histories of a process that differ only in names and values (of nodes, modules, configuration, inputs, overrides), in results and messages of exceptions, in classes outside of the library, in frames of files that are not below a directory called `hamilton`, and in the place where the library is installed, send the same events in the same order. The directory is needed: `C76_violated_folder`.
* `C76_violated_dataflow` (Telemetry.lean): C76 (5) is false for functions of `hamilton.dataflows`: switched off, every one of them raises.
* `C76_violated_contrib` (Telemetry.lean): C76 (5) is false for contributed dataflows: switched off, they cannot be imported.
* `C76_violated_limit` (Telemetry.lean): C76 (4) is false for functions of `hamilton.dataflows`: eleven calls send eleven events.
* `C76_violated_config_lost` (Telemetry.lean): C76 (3) is false for a file that cannot be read: an opt-out written without the header of the section does not count, and is overwritten.
* `C76_violated_folder` (Telemetry.lean): C76 (6) is false for the user's code below a directory called `hamilton`: file name, line and function are sent.

*Status:* The switch and opting out are proved in full. Violated: functions of `hamilton.dataflows` and contributed dataflows raise when telemetry is off (C76_violated_dataflow, C76_violated_contrib) and do not count towards the limit (C76_violated_limit); an unreadable configuration file is overwritten (C76_violated_config_lost); frames of the user's files below a directory called `hamilton` are sent (C76_violated_folder). The partial theorems cover the rest.

### C77 A driver made from modules of plain functions computes what the functions say — partial

*Modelled:* Functions are Python functions: parameters with kinds, defaults and annotations, and a body that runs on local variables; a call with keyword arguments binds them as Python does. `find_functions`, `from_fn`, `create_function_graph` and `execute` are composed. The specification `Computes` is a big-step semantics on the functions, without nodes and graphs.
*Proof:* The nodes made from the functions are fresh, so `createFunctionGraph_spec` applies; functional composition on the graph (`Den`) is shown equivalent to `Computes` by induction in both directions; then C01 (soundness) and C04 (completeness).

* `C77_annotations` (FromFn.lean): C77 (1): making the nodes fails if and only if a public function of the modules has a parameter without annotation, or no annotation of its result.
* `C77_structure` (FromFn.lean): C77 (2): the graph has a node for every public function of the modules that config does not shadow - for the last definition of a name - with one dependency per parameter, in the order of the signature, required unless the parameter has a default; it collects if an annotation is `Collect`, else it expands if the result is `Parallelizable`; all other nodes are inputs; an imported or private function is no node.
* `C77_program_partial` (FromFn.lean): C77 (3), in part: if `execute` returns, every requested name of a function has the value it has by the text of the program. Missing: functions with positional-only or variable parameters (`C77_violated_positional`, `C77_violated_kwargs`) and imports from modules whose name contains the name of the importing module (C45).
* `C77_complete_partial` (FromFn.lean): C77 (4), in part: if all requested functions have a value by the text of the program, the execution returns them (limits as in (3); the checks of the types of inputs come before and are not part of this).
* `C77_violated_positional` (FromFn.lean): C77 (3) is false for positional-only parameters: the driver is built, the input is given, and the call raises a `TypeError`.
* `C77_violated_kwargs` (FromFn.lean): C77 (3) is false for `**kwargs`: the function depends on one node with the name of the parameter, whose value arrives under that name inside of the dictionary.
* `C77_violated_alias` (FromFn.lean): C77 (2) needs functions to be members once: a second name for a function of the module (`cost = spend`) prevents the driver from being built, because the function is found twice.

*Status:* Annotations and structure are proved in full (for imports that C45 allows). Values in both directions for functions whose parameters can be given by name; violated for positional-only parameters (TypeError, C77_violated_positional) and for **kwargs, which is treated as one parameter (C77_violated_kwargs). A second name for a function in its module prevents construction (C77_violated_alias).

### C78 Drawings show exactly the selected part of the dataflow — partial

*Modelled:* A drawing is the list of DOT statements written by `create_graphviz_graph` (boxes with label, classes and enclosing subgraph; arrows), with the five driver methods on top of the graph searches of C09-C11. The specification `Faithful` speaks about these statements only: a box is `Drawn` if one statement sets its text and look and no other statement about the same identifier changes them.
*Proof:* The loop over the nodes is characterised statement by statement (`box_kind`, `arrow_kind`); the sharing of tables is an induction over the nodes with the dictionary of tables generalised (`assigned_*`). The selections are the reachability theorems C09, C10, C11. Labels: `html.escape` is inverse to a relational reading of HTML text, and the reading is unique.

* `C78_all_partial` (Visualize.lean): **C78, everything.** `display_all_functions` draws every function, every dependency between functions, and every function's inputs.
* `C78_execution_partial` (Visualize.lean): **C78, executions.** `visualize_execution` draws exactly what the requested variables need, given the inputs and with the overrides cutting off what is above them: the requested variables are marked as outputs, the overridden ones as overrides; and every function that the execution calls has a box.
* `C78_execution_no_inputs_partial` (Visualize.lean): The same when no inputs are passed: then optional inputs are drawn too.
* `C78_downstream_partial` (Visualize.lean): **C78, downstream.** `display_downstream_of` draws everything that depends on the given names, and what these nodes depend on directly; unknown names raise the error that lists them.
* `C78_upstream_partial` (Visualize.lean): **C78, upstream.** `display_upstream_of` draws everything the given names depend on.
* `C78_path_partial` (Visualize.lean): **C78, paths.** `visualize_path_between` fails if there is no path; otherwise it draws the nodes on the paths (and, unless the path is to be shown strictly, what they depend on directly), and the arrows in the colour of the path are exactly the dependencies on a path.
* `C78_legend_partial` (Visualize.lean): **C78, the legend** (partial) has an entry for a class of boxes exactly if the picture has a box of this class: for all classes but those of inputs and of the configuration (`C78_violated_legend_inputs`, `C78_violated_legend_config`) and the frames around columns.
* `C78_label_partial` (Visualize.lean): **C78, labels** (partial). Whatever the type or the configuration value is, the label of a box is well formed and shows the name and the text of the type, cut after 80 characters — provided the name contains none of `<`, `>`, `&` (`C78_violated_label`).
* `C78_violated_label` (Visualize.lean): **C78 is violated for names with a special character**: the label of the configuration key `a<b` is not well formed (the drawing fails), although the value is escaped.
* `C78_violated_legend_name` (Visualize.lean): **C78 is violated for a function named like a class of the legend**: the box of the function `output` is moved into the legend and restyled as its entry.
* `C78_violated_requested_input` (Visualize.lean): **C78 is violated for a requested input**: requesting an input that nothing requested consumes draws nothing for it.
* `C78_violated_override_arrow` (Visualize.lean): **C78 is violated by overrides**: the arrow from `base` to the overridden `left` is drawn although the value of `left` does not come from `base`, as soon as `base` is needed for something else.
* `C78_violated_legend_config` (Visualize.lean): **C78 is violated by the legend**: the boxes of the configuration are drawn but have no entry.
* `C78_violated_legend_inputs` (Visualize.lean): **C78 is violated by the legend**: with hidden inputs no input is drawn but the legend has an entry for them.

*Status:* Proved for all five methods under the hypothesis that no node is called like an identifier of the drawing (table of inputs, legend entry, a name with a colon). Violated: a function called `output` (or like another legend entry) is moved into the legend; a requested input that nothing requested consumes is not drawn; the arrows into an overridden node are drawn if their source is selected; the legend lacks the configuration and lists hidden inputs; names are not escaped. custom_style_function, graphviz_kwargs and rendering are not modelled.

### C79 Execution as Spark UDFs computes row by row what plain execution computes — partial

*Modelled:* The adapter's `execute_node` with the table it carries along (`sparkRun`), the selection of columns and bound parameters, the UDF as a function on rows and `build_result`, on top of the generic executor. A cell is a value or an error, since UDFs run lazily. The specification replaces the table by the cells of a row (`atRow`) and uses the denotation of plain execution.
*Proof:* A generic simulation (`Proofs/CrossSim`) relates the execution with the adapter to a plain execution of the same graph on columns (`pureFn`: values, or functions from rows to values); the relation `Rel` says that the frame of a node contains the right column in the adapter's current frame, the invariant `AInv` that the current frame is the given table plus a column per executed function. The execution on columns agrees with the denotation in each row (`pure_den`, `den_pure`).

* `C79_rows_partial` (Spark.lean): C79. If an execution with a new `PySparkUDFGraphAdapter` (or one whose last execution succeeded) gives a result, then the columns of the given table come first, unchanged, followed by the requested outputs in order, the rows are the rows of the given table, and in every row the cell of a requested output holds the value that the functions have by composition when every given table is replaced by the cell of that row; the cell fails to have a value exactly if there is no such value. An input that is not supplied gives `None`. Afterwards the adapter is as new. Partial: tables are given for exactly those nodes that are named like columns, all tables are the same (`OneTable`); what Spark does to values that it stores is not modelled.
* `C79_complete_partial` (Spark.lean): C79. An execution gives a result if the functions that are run by Spark have types that can be handled, if the functions succeed on the first row, and if at least one output is a function that is run by Spark. (Whether the functions succeed on the other rows only shows when the cells are looked at.)
* `C79_violated_after_failure` (Spark.lean): **C79 is violated** after an execution that failed: the adapter keeps the table, and the next execution, with other inputs, gives the rows and values of that table.
* `C79_violated_scalar_column` (Spark.lean): **C79 is violated** by a table with a column that is named like a value computed on the driver: `scaled` is 20, but `taxed` is computed with the column.
* `C79_violated_two_tables` (Spark.lean): **C79 is violated** when two tables are given: `qty` is taken from the table that came first.
* `C79_violated_driver_side` (Spark.lean): **C79 is violated** when all outputs are computed on the driver, or are inputs: there is no result.
* `C79_violated_replaced` (Spark.lean): **C79 is violated** by a function that is named like a column: it is refused if it is the first one that Spark runs, else it replaces the column of the table.

*Status:* Proved if the table is given for exactly those nodes that are named like its columns and no other table is given, and functions do not see the order of keyword arguments. Violated: after an execution that failed the next one works on the old table; a column that is named like a value computed on the driver (or a scalar input) is used in its place; of two tables only the first is used; outputs that do not depend on the table alone give an AttributeError; a function named like a column replaces it silently unless it is the first to run. The conversion of values by Spark and pandas batches are not modelled.

### C80 @with_columns and @select for PySpark add row by row what the functions compute — partial

*Modelled:* `sparkify_node_with_udf` (`sparkifyUdf`), the chaining of the sorted nodes with the linear, grouped and base dependencies (`chainUdfs`), the drop and select nodes, and the injection with pruning and namespace (`sparkColumnsNodes`). The specification `TableWith` compares each cell with the denotation of a separate graph of the functions for the inputs of that row (`RowInputs`).
*Proof:* By induction over the chain (`chain_sound`, `chain_complete`) with the invariant `ChainInv`: the table held by a node is the original one with the right columns of all functions before it. The renamed nodes of the graph denote what the chain says (`StepAt`), the order comes from the topological sort (C12), the pruned set from C68's `prune_facts`, the parameter of the decorated function from `injected_value`.

* `C80_value_partial` (SparkColumns.lean): **C80, the columns are added row by row (partial).** Let `F` be the value of the dataframe parameter of a function decorated with `@with_columns` or `@select`. Either the decorated function has no value, or its value is what it returns when that parameter is `F` with the chosen columns added (with `@select`: only these), see `TableWith`, and the other parameters are unaffected. Missing: names that clash (`SparkNames`), functions that take a dataframe, a parameter that is neither a function nor among `columns_to_pass` but is called like a column (`C80_violated_shadowed`), and, for `@with_columns`, functions that are not selected and are called like a column of the table (`C80_violated_column_dropped`).
* `C80_complete_partial` (SparkColumns.lean): **C80, nothing is refused without reason (partial).** In the situation of `C80_value_partial`, the first case does not occur if, for every function that is needed for the chosen columns, a parameter that is neither a function nor among `columns_to_pass` has a value that is not a dataframe (or has a default and is an input not supplied), a parameter among `columns_to_pass` is a column of the table or has a default, and the types can be handled: the required parameters that come from the table are not series and the returned type has a counterpart in Spark, or they are all series, there is one, and the type of the elements of the returned series has a counterpart.
* `C80_no_table` (SparkColumns.lean): **C80, no dataframe, no value.** If the dataframe parameter has no value, or one that is not a dataframe, the decorated function has no value.
* `C80_violated_shadowed` (SparkColumns.lean): **C80 is violated** by a parameter that is not among `columns_to_pass`, is computed by the surrounding graph (`rate` is 2 there), and happens to be called like a column: the cell is used in place of the value.
* `C80_violated_column_dropped` (SparkColumns.lean): **C80 is violated** by `@with_columns` ("it will keep all original columns in the dataframe, and append what's in select") if a function that is not selected is called like a column: the column disappears.
* `C80_violated_no_columns` (SparkColumns.lean): **C80 is violated** by the decorator without `columns_to_pass` ("if this is left empty … we will assume that all dependencies come from the dataframe"): the columns are required as inputs. If they are supplied, they are not used.
* `C80_violated_missing_column` (SparkColumns.lean): **C80 is violated** by a name of `columns_to_pass` that is not a column: it is not refused, a default is used.

*Status:* Proved for functions that become UDFs, if names do not clash, no parameter outside `columns_to_pass` is called like a column, and (for `@with_columns`) no unselected function is called like a column. Violated: a column shadows a value of the surrounding dataflow with the same name; `@with_columns` drops an original column that is called like an unselected function; without `columns_to_pass` the dependencies are required as inputs, though the documentation says that all come from the dataframe; a name of `columns_to_pass` that is not a column is silently replaced by a default. Missing: functions that take dataframes (`@require_columns`), `pass_dataframe_as`, conversion of values by Spark.

### C81 Dry runs agree with execution, however the outputs are requested — partial

*Modelled:* `convert_output_value(s)` and `_create_final_vars` (`createFinalVars`), `execute` and `materialize` with the conversion, `validate_execution` (`validateExecution`), `validate_materialization`, `has_cycles` with the edges of `create_networkx_graph`, `export_execution` with the names and parameters of `HamiltonNode.as_dict`. Circles in the networkx graph are found by peeling off nodes without a predecessor. The specification: `Names` (what a request names), `Circle`, `PlanEdge` (what a run looks at), `OwnFailure` (what may still go wrong).
*Proof:* The requests by induction over the list; acceptance by C06 and the error invariant of the executor; peeling leaves something exactly if there is a circle (`simpleCycles_iff`: a set closed under predecessors contains a circle by the pigeonhole principle, a circle is never peeled), linked to executions by C54; the export by the specification of the search (C11) and of the insertion sort.

* `C81_requests_partial` (DryRun.lean): **C81, requests (partial).** Whether a node is requested by its name, by the function, or by the `Variable` makes no difference: `execute` does what it does for the list of names. Missing: the empty string, which is silently dropped (`C81_violated_empty`).
* `C81_impossible` (DryRun.lean): **C81, impossible requests.** If a request names no node — a function of another module, or an object that is neither a string nor a function and has no name — `execute`, `materialize` and `has_cycles` refuse the whole list before anything is looked up or run, and count all such requests.
* `C81_validate_partial` (DryRun.lean): **C81, validation (partial).** For outputs requested by name, `validate_execution` refuses exactly what `execute` refuses before running anything, with the same error; if it accepts, `execute` can only fail with the exception of a needed function called with its right arguments, or by running in a circle. Missing: outputs requested by function or `Variable`, for which `validate_execution` always raises a TypeError (`C81_violated_function`), and the empty string.
* `C81_validate_materialization_partial` (DryRun.lean): **C81, validation of a materialization (partial).** If something is requested, `validate_materialization` refuses with the error with which `materialize` fails; if it accepts, `materialize` can only fail with the exception of a needed function (of the graph with the loaders and savers added) called with its right arguments, or by running in a circle. Missing: requests of nothing, which are accepted although `materialize` refuses them (`C81_violated_nothing`), and loaders for config items.
* `C81_has_cycles_partial` (DryRun.lean): **C81, circles (partial).** With networkx installed, `has_cycles` answers for known nodes, however they are requested, and says true exactly if a requested node depends on a node that depends on itself. If it says false, no execution of the request ever recurses endlessly, whatever the inputs and overrides; if it says true, no execution without overrides returns. Names of no node are refused, all of them being listed. Missing: without networkx the answer is always false (`C81_violated_networkx`).
* `C81_export_partial` (DryRun.lean): **C81, export (partial).** For outputs requested by name: `export_execution` succeeds whenever `validate_execution` accepts and fails only with its error; the exported list is sorted by name, has each node that a run with these inputs and overrides looks at once and no other, and lists for each its required and its optional parameters, sorted. Missing: outputs requested by function or `Variable`, which always raise a TypeError; the other fields (type, tags, source, documentation, version).
* `C81_violated_function` (DryRun.lean): C81 is violated for functions and `Variable`s: `validate_execution` and `export_execution` raise a TypeError for a request that `execute` carries out.
* `C81_violated_empty` (DryRun.lean): C81 is violated for the empty string: `execute` drops it and returns the rest, `validate_execution` refuses it as unknown.
* `C81_violated_networkx` (DryRun.lean): C81 is violated without networkx: `has_cycles` says there is no circle, and execution recurses endlessly.
* `C81_violated_nothing` (DryRun.lean): C81 is violated for an empty materialization: it is accepted by `validate_materialization` and refused by `materialize`.

*Status:* Proved for the default executor without adapters, names other than the empty string, and loaders that leave config items alone. Violated: `validate_execution` and `export_execution` raise a TypeError for functions and `Variable`s that `execute` accepts; `execute` silently drops an empty string that `validate_execution` refuses; without networkx `has_cycles` is false whatever the graph; `validate_materialization` accepts an empty request that `materialize` refuses. networkx's `simple_cycles` is modelled by what it decides.

### C82 Drivers made from Kedro pipelines compute what the pipelines compute — partial

*Modelled:* All of h_kedro.py: `expand_k_node` (`expandKNode`, with the functions whose annotation was replaced as state), `k_node_to_h_nodes`, `kedro_pipeline_to_driver` (`kedroToDriver`) on top of `extract_fields`, `Node.reassign_inputs`, `Node.transform_output` and `update_dependencies`. The specification: `Fed` (inputs by position), `callArgs`, `Produces` (one value, components, entries), and the inductive `KValue` (what Kedro computes). Functions are modelled by identity, name, annotation, parameters and meaning; Python 3.11 or later, where `Any` is a class, as `extract_fields` wants its fields to be.
*Proof:* The nodes made of a proper Kedro node are listed (`kNode_spec`) and have distinct names (`unique`); the renaming of the parameters is undone by the wrapped function (`reassigned_gen`, from `reassign_args` of Proofs/Pipe), so that base nodes are called with exactly Kedro's arguments; then `Den` and `KValue` are compared by induction on each, and C01 and C04 give executions.

* `C82_converts` (Kedro.lean): **C82**, conversion: proper pipelines are converted, whatever the types are, unless types of connected nodes do not fit.
* `C82_values_partial` (Kedro.lean): **C82**, values: in the driver, a dataset or parameter of the pipelines has exactly the values that the pipelines give it. Partial: see `Clean`, and the violations below.
* `C82_execute_partial` (Kedro.lean): **C82**, execution: whatever datasets are requested, a run of the driver that succeeds returns for each of them the value that the pipelines give it. Partial: see `Clean`, and the violations below.
* `C82_complete_partial` (Kedro.lean): **C82**, completeness: if the pipelines give every requested dataset a value, the driver's executor returns these values.
* `C82_violated_reused` (Kedro.lean): **C82** is violated: a function with several outputs that is used by two nodes. The driver is built, and can compute none of the datasets.
* `C82_violated_again` (Kedro.lean): **C82** is violated: making a driver replaces the annotation of the function, and a second driver made of the same pipeline no longer splits the tuple.
* `C82_violated_single` (Kedro.lean): **C82** is violated: a list with one output. For Kedro the dataset is the only component; in the driver it is the list.
* `C82_violated_keys` (Kedro.lean): **C82** is violated: outputs declared by a dictionary are looked up by the name of the dataset, not by the key.
* `C82_violated_length` (Kedro.lean): **C82** is violated: Kedro refuses results with more or fewer components than outputs; the driver does not notice.
* `C82_violated_parameter` (Kedro.lean): **C82** is violated: `params:x` and the dataset `x` are one input of the driver: whatever is given for it, both get it.
* `C82_violated_twice` (Kedro.lean): **C82** is violated: a dataset that is passed to two parameters reaches only the last of them.
* `C82_violated_default` (Kedro.lean): **C82** is violated: a parameter with a default gets the dataset of its name, though no input is passed to it.
* `C82_violated_annotation` (Kedro.lean): **C82** is violated: an annotation with type arguments cannot be converted.

*Status:* Proved for pipelines in which nothing collides (`Clean`). Violated: a function with several outputs used by two nodes; a second driver made of the same pipeline (the first replaced the annotation of the function); a list with a single output; dictionary outputs whose keys are not the dataset names (values are swapped or missing); tuples of the wrong length; a dataset and a parameter of one name; one dataset passed to two parameters; an unfed parameter named like a dataset; annotations with type arguments. Kedro is not in the repository: what a pipeline computes is the specification `KValue`. The completeness theorem is about the executor, without the validation of inputs.

### C83 The @parameterize family accepts exactly the well-formed specifications and makes the nodes they ask for — partial

*Modelled:* `group` with its validation; the constructors of `parameterize`, `parameterize_values`, `parametrized_input`, `parameterize_sources` and `inject` (dict comprehensions with the last key winning); `validate`, with `format_doc_string`, the pulling of types out of `Optional` and the checks of annotations of groups; `resolve_dependency_type`; and `expand_node` on top of the model of C39. Annotations are an inductive type (None, classes, generic aliases, flat unions); docstrings are lists of pieces of templates. The specification: `HasDoc`, `Maybe`, `Element`, `InputType`, `Fits`, `NodeFor`, `Plainly`.
*Proof:* Each loop of `validate` is shown to succeed iff all members are fine (`checkDocs_iff`, `checkHints_iff`, `checkAllHints_iff`), unwrapping of tidy annotations agrees with `Maybe` (`unwrap_tidy`), rendering with filling in (`render_iff`); the types of the inputs follow by an invariant of the fold (`newInputTypes_types`); values come from C39.

* `C83_group` (ParamFamily.lean): **C83.** `group` takes either positional or keyword arguments, at least one, all of them `value(…)` or `source(…)`; it is the list or the dictionary of them, in this order.
* `C83_construct` (ParamFamily.lean): **C83.** `@parameterize` is refused iff something that is no dependency is among the replacements. Otherwise it has, in the given order, the given outputs with the given replacements, and the given docstrings.
* `C83_values_partial` (ParamFamily.lean): **C83 (partial).** `@parameterize_values` takes pairs of outputs and docstrings only; if the outputs are distinct it is the `@parameterize` that gives the parameter each output's value, and each output its docstring. Missing: equal outputs (`C83_violated_values`).
* `C83_input_partial` (ParamFamily.lean): **C83 (partial).** `@parametrized_input` takes pairs of outputs and docstrings only; if the outputs are distinct it is the `@parameterize` that makes each output from its input. Missing: equal outputs (`C83_violated_input`).
* `C83_sources` (ParamFamily.lean): **C83.** `@parameterize_sources` takes at least one output, and at least one source for each; it is the `@parameterize` with these sources.
* `C83_inject` (ParamFamily.lean): **C83.** `@inject` takes dependencies only; it is the `@parameterize` whose only output is the function itself.
* `C83_accept_partial` (ParamFamily.lean): **C83 (partial).** A function may be decorated iff: the docstrings of the outputs that have none of their own can be made of that of the function; the function has no parameter `output_name`; everything that is replaced is a parameter; and what is replaced by a group is annotated as a list, or as a dictionary from strings, or as optional such. Missing: annotations `None` and unions in which `None` comes first (`C83_violated_annotation`, `C83_violated_order`).
* `C83_nodes_partial` (ParamFamily.lean): **C83 (partial).** If the decorator fits the function, decorating succeeds and makes, in the given order, one node for each output, under its name, with its docstring; its inputs are the parameters that are not replaced, with their types, the sources, with the types of the parameters they replace, and the members of groups, with the types of the members. Missing: see `C83_accept_partial`.
* `C83_value_partial` (ParamFamily.lean): **C83 (partial).** In a graph with the nodes of a decorated function, every output has the value that the function returns on the arguments its specification asks for. Missing: sources that are optional inputs and are not supplied (as for C39).
* `C83_violated_values` (ParamFamily.lean): **C83 violated.** Two values are given to one output, under different docstrings. The decorator is accepted, and the first of them is lost.
* `C83_violated_input` (ParamFamily.lean): **C83 violated.** Two inputs are given to one output of `@parametrized_input`. It is accepted, and the first of them is lost.
* `C83_violated_order` (ParamFamily.lean): **C83 violated.** A group is refused for a parameter annotated `Union[None, List[int]]`, though it is accepted for `Union[List[int], None]`, which is the same type.
* `C83_violated_annotation` (ParamFamily.lean): **C83 violated.** Replacing a parameter annotated `None` by a source fails with an `IndexError`, though the decorator fits.
* `C83_violated_braces` (ParamFamily.lean): **C83 violated.** A function whose docstring shows a dictionary cannot be decorated: the braces are taken for a template, and a `ValueError` is raised, although nothing is wrong with the decorator: with a docstring of its own the output would be made.
* `C83_violated_empty` (ParamFamily.lean): **C83 violated.** `@parameterize()` and `@parameterize_values("base", {})` are accepted, and the function they decorate disappears: there is no node for it.

*Status:* Proved for annotations in which None occurs at most as Optional[…], and for distinct outputs. Violated: two values or two inputs for one output of `@parameterize_values` and `@parametrized_input` (one is lost silently); Union[None, List[int]] is refused for a group; a parameter annotated None fails with an IndexError; braces in the docstring of the function fail with a ValueError; empty decorators are accepted and the function disappears. Values of sources that are optional inputs and not supplied: as for C39.

### C84 Traces and progress bars mirror the run — partial

*Modelled:* The three caches of `_DDOGTracerImpl` with each hook, its `KeyError`s, and pickling (identifiers instead of spans, the cache of nodes wiped); processes as copies of the main adapter made at any moment. `_enter_span` and `_exit_span` with the token stack and the current span of a context, any number of contexts. `ProgressBar` with its widths. Spans, links and the bar are modelled by what the libraries record; tags and attributes are left out. The specification (`Spec/Tracing.lean`) speaks only of the list of events: `begun`, `Open`, `Allowed`, `Valid`, `expected`, `ending`, `Mirrors`, `Distributed`; for OpenTelemetry of `Forest`s.
*Proof:* An invariant of the distributed run (`Inv`): the caches of a process know, for the tasks at home there, the places of the spans among all that has begun; each hook and each copy keeps it (`Inv.grow`, `Inv.stay`, `Inv.runStart`, `Inv.runEnd`, `Inv.fork`), by induction over the history from its end. Nested histories by induction over forests, interleavings by projection to contexts. The bar from C64 (what is on the execution path is called) and C02 (at most once).

* `C84_distributed_partial` (Tracing.lean): C84, Datadog, several processes (partial: see `C84_violated_links`). However the runs, tasks and nodes of a tracer are interleaved and wherever the tasks are executed, no hook raises, the trace mirrors what happened, and once all runs are over the main process keeps nothing.
* `C84_datadog_partial` (Tracing.lean): C84, Datadog, one process (partial: see `C84_violated_links`): the same for any interleaving of the hooks of a tracer.
* `C84_nested` (Tracing.lean): C84, OpenTelemetry, one thread: a nested history leaves its trace below the current span, and everything else as it was.
* `C84_contexts_partial` (Tracing.lean): C84, OpenTelemetry, several threads or asyncio tasks (partial: see `C84_violated_threads`): when each has a nested history, then in every interleaving no hook raises and each leaves its trace below the span that was current where it began.
* `C84_progress_partial` (Tracing.lean): C84, progress bar (partial: see `C84_violated_overrides` and `C84_violated_nothing`). In a successful run without overrides that has anything to compute, the bar counts every function and is full and closed in the end.
* `C84_display` (Tracing.lean): C84, progress bar: names are shown in exactly the width of the bar, when that is at least three; short ones whole and padded with blanks, long ones cut, with an ellipsis.
* `C84_violated_links` (Tracing.lean): C84 is violated for causal links across tasks: `d` uses `b`, which was computed in another task of the run, and is not linked to it.
* `C84_violated_threads` (Tracing.lean): C84 is violated for tasks in other threads: the span of the task begins while that of the run is open, and is not below it but a trace of its own.
* `C84_violated_overrides` (Tracing.lean): C84 is violated with overrides: overridden nodes are in the total but are never run, so a successful run ends below the total.
* `C84_violated_nothing` (Tracing.lean): C84 is violated when there is nothing to compute: a run for an input would succeed, but the bar refuses to begin.
* `C84_violated_narrow` (Tracing.lean): C84 is violated for narrower bars: the width stays that of the first run, and if that was one, longer names of later runs are shown wider.

*Status:* Proved in full for single-task causal links, contexts that are copied or single-threaded, and runs without overrides. Violated: nodes are not linked to what they use from other tasks; OpenTelemetry spans of tasks in pool threads are roots instead of being below their run; with overrides the bar ends below its total; with nothing to compute the bar raises ValueError; in a bar narrower than three, kept from an earlier run, names are shown wider.

### C85 Result stores give back what was stored — partial

*Modelled:* `FileResultStore` on a directory of files (pickled value, pickled loader with its path, data of a saver, other), with `with_suffix` on the characters of the name; `StoredResult.new`, `save`, `load`; `InMemoryResultStore`; the parts of the adapter that store and look up. Pickling is assumed to give back an equal value. The specification (`Latest`) speaks of the list of operations only.
*Proof:* Induction over histories from their end: what the directory holds under a version (`Holds`) is changed by a carried-out operation on that version only, because a name without dots and the name with a suffix can be told apart (`path_inj`).

* `C85_memory` (ResultStore.lean): After any history the in-memory result store gives back the value set last and not deleted since, whatever the value, and `exists` says whether there is one.
* `C85_file_partial` (ResultStore.lean): After any history of operations on data versions without dots, with formats whose loader undoes the saver, the result store in files gives back the value set last and not deleted since, however each was written, and `exists` says whether there is one. A `set` with only a saver or only a loader, with one that takes no path, or of a value that cannot be pickled changes nothing and raises. Missing: data versions with dots, and files changed by others (`C85_violated_dots`, `C85_violated_removed`).
* `C85_agree_partial` (ResultStore.lean): So the two result stores give the same answers to the same operations.
* `C85_hits_partial` (ResultStore.lean): What the caching adapter stores in files it gets back: if equal data versions mean equal values, then after any number of nodes have been computed and stored, each with the format it asks for or none, a lookup of any of their data versions is a hit with the value, and a lookup of any other data version is no hit.
* `C85_format` (ResultStore.lean): A result for which a format is asked is there as a file of that format, named after the data version, once the caching adapter has stored it: also if the same data version had been stored without the format before.
* `C85_expired_partial` (ResultStore.lean): `delete_expired` on a directory in which only plain results were stored neither deletes anything nor fails. (No result in a file has an expiry.) Missing: other files (`C85_violated_expired`).
* `C85_violated_removed` (ResultStore.lean): Once the file a saver wrote is gone, the lookup is a hit with `None`: the exception of the loader is taken for a missing result after `exists` has said there is one.
* `C85_violated_dots` (ResultStore.lean): Two data versions with dots share the file of a format.
* `C85_violated_expired` (ResultStore.lean): In the directory the adapter uses by default the database of the metadata store lies beside the results: `delete_expired` fails on it, as it fails on what a saver wrote, and `delete_all` removes it.
* `C85_violated_memory` (ResultStore.lean): With a format the in-memory store cannot be used, and the stores differ when something absent is deleted.

*Status:* Proved for all histories with data versions that have no dots (as fingerprints are) and formats whose loader undoes the saver. Violated: when the file a saver wrote is gone, the lookup is a hit with None; data versions with dots share the file of a format; delete_expired raises in the default directory, where the database lies, and delete_all removes the database; with a format the in-memory store raises AttributeError; deleting what is absent raises in memory only.

### C86 Moving a cache between stores keeps it — partial

*Modelled:* `persist_to` and `load_from` of both in-memory stores, loop by loop with their exceptions, on the models of C30 and C85. The specification: histories in which sets belong to started runs (`Proper`), `get`, `get_run_ids`, `get_run` of both sides.
*Proof:* The final state of the loops is computed (`each_runs`, `loadRuns_spec`); `mem_recorded` and `sql_recorded` show by induction over the history that every key that has a version is listed by a run, so nothing is left behind.

* `C86_load` (StoreCopy.lean): Loading a SQLite store into memory: it never fails on a store that is open, the runs are the same in the same order, a key has exactly the version that a run of the store lists for it, and each run lists the same keys with the same versions.
* `C86_load_all_partial` (StoreCopy.lean): A SQLite store that the adapter has filled, deletions included, is loaded completely: `get` answers the same for every key. Missing: versions that change under the same key (C30).
* `C86_persist_partial` (StoreCopy.lean): Persisting an in-memory store that the adapter has filled and whose runs can be listed: it does not fail, the runs are appended in their order, a key the other store did not have gets the version it has in memory, and a key the other store had keeps its version. Missing: stores with deleted keys or with nodes of behaviour "ignore" (`C86_violated_deleted`, `C86_violated_ignored`), and keys the other store has with another version (`C86_violated_other`).
* `C86_persist_new_partial` (StoreCopy.lean): Into a new database: the same versions, the same runs, and `get_run` lists the same for every run.
* `C86_round_trip_partial` (StoreCopy.lean): There and back: what is persisted into a new database and loaded again gives the same answers to everything.
* `C86_results_persist_partial` (StoreCopy.lean): Persisting results into files: after it, whatever was in memory is found with its value, and everything else is as before.
* `C86_results_load_partial` (StoreCopy.lean): Loading results into memory: with a list of data versions, a metadata store whose runs can be listed, or both, the new store has exactly the data versions asked for, each with what `get` of the other store returns. Missing: a data version for which the other store has no result gets one (`C86_violated_missing`).
* `C86_results_refused` (StoreCopy.lean): Without either source of data versions it refuses.
* `C86_violated_deleted` (StoreCopy.lean): Once a key was deleted, its run can neither be persisted nor listed; what came before it has been written.
* `C86_violated_ignored` (StoreCopy.lean): A node of behaviour "ignore" is recorded under the key `None`, and then nothing can be persisted to SQLite.
* `C86_violated_other` (StoreCopy.lean): If the database has another version for a key, it keeps it.
* `C86_violated_twice` (StoreCopy.lean): Persisting twice lists every run and every node of it twice.
* `C86_violated_missing` (StoreCopy.lean): A data version without a result is loaded as `None` (here 0), and from then on `exists` says that there is one: the next execution takes `None` for the value of the node.

*Status:* Proved for stores that the adapter filled and whose runs can be listed. Violated: after a deletion, or with a node of behaviour ignore (key None), persist_to raises; a key the target has with another version keeps it; persisting twice doubles the runs; data versions without a result are loaded as None and then exist.

### C87 Options of data loaders and savers reach the library — partial

*Modelled:* The 67 adapters as data: fields with defaults, `__post_init__`, the statements of `_get_loading_kwargs` and `_get_saving_kwargs` (seven kinds), the calls of `load_data` and `save_data`, and which field the metadata looks at; an interpreter runs them on arbitrary arguments. The tables were read off the text of the classes statement by statement. The specification (`Spec/AdapterOptions`) lists the rule of each option (passed unless `None`, apart from listed exceptions), the documented function, and where it takes the location. The library functions themselves are taken to return.
*Proof:* The effect of a list of statements on one keyword is computed for arbitrary values (`kwargsOf_get?`), a checker reads off the rule of an option (`readRule`, sound by `readRule_sound`), and the kernel evaluates the checker on the tables, which are fixed (`table_*`); arguments, values and versions stay arbitrary throughout.

* `C87_exact` (AdapterOptions.lean): Every option is passed on by its rule: for every adapter (except the three with a dict of further keyword arguments), every version of pandas, all arguments and each option, if the library is called at all, then the option reaches exactly one of the calls under its own name with the value given (or the default), or none of them, as its rule says.
* `C87_nothing_else` (AdapterOptions.lean): Nothing else is passed: no call gets a keyword that is neither an option of the adapter nor the keyword of the location.
* `C87_excel` (AdapterOptions.lean): The Excel writer makes two calls: `ExcelWriter` gets the options that are parameters of it, and `to_excel` the others.
* `C87_reaches_partial` (AdapterOptions.lean): An option that is given and not `None` reaches the library, under its name and with its value, in exactly one call. Missing: the options that are dropped, always or in some circumstances (`C87_violated_dropped`, `C87_violated_version`, `C87_violated_compression`), and `None` (`C87_violated_none`).
* `C87_function` (AdapterOptions.lean): A use with proper arguments of an adapter makes the documented calls, in order.
* `C87_location` (AdapterOptions.lean): The location goes to the first call, by position or under the keyword that the library has for it. (The location of `DltDestinationSaver` is the object whose method is called; for `PandasPickleReader` see `C87_pickle`.)
* `C87_unknown` (AdapterOptions.lean): An option that the adapter does not know is refused before anything is done, never ignored; so is a missing location.
* `C87_completes_partial` (AdapterOptions.lean): With proper arguments and a location that is a string or (unless it is a query or table) a path, the library is called and the adapter returns, whatever the options. Missing: buffers as locations (`C87_violated_buffers`), options that cannot be copied (`C87_violated_copies`).
* `C87_violated_buffers` (AdapterOptions.lean): Violated: a buffer as a location, which most adapters declare in their types, is handed to the library, the data is read or written, and then the adapter raises, for every adapter that describes the file it used.
* `C87_pickle` (AdapterOptions.lean): `PandasPickleReader` has two options for the location: giving both or neither is refused, and with one of them the data is read from there.
* `C87_extra_parquet` (AdapterOptions.lean): `PandasParquetWriter`: the options that are not `None` are passed on, and so is everything in `extra_kwargs`, which wins.
* `C87_extra_dataset` (AdapterOptions.lean): `HuggingFaceDSParquetSaver`: `batch_size` is passed on, and so is everything in `parquet_writer_kwargs`, which wins.
* `C87_extra_load` (AdapterOptions.lean): `HuggingFaceDSLoader`: every option is passed on, and so is everything in `config_kwargs`, which wins; `dataset_name` is passed as `name`.
* `C87_violated_dropped` (AdapterOptions.lean): Violated: an option that is never passed on has no effect at all, whatever is given for it: the calls are the same as without it.
* `C87_violated_none` (AdapterOptions.lean): Violated: `header=None` and `skipfooter=1`, both given, do not reach `read_csv`, which then takes the first line for the header and the last one for data.
* `C87_violated_version` (AdapterOptions.lean): Violated: versions of pandas are compared as strings, so that 10.0.0 counts as older than 2.0 and `dtype_backend` is dropped.
* `C87_violated_compression` (AdapterOptions.lean): Violated: with `compression=None` the Parquet writer of polars drops all other options as well.
* `C87_violated_copies` (AdapterOptions.lean): Violated: an open file, which cannot be copied, is refused by the adapters that copy their options before the library is called, and a dataclass instance reaches the library as a dict.
* `C87_violated_na_values` (AdapterOptions.lean): Violated: `na_values`, which the Excel reader names among its options, is refused.

*Status:* C87_exact gives, for every adapter and option, exactly when it is passed; the three adapters with a dict of further arguments and the pickle reader have theorems of their own. Violated: twelve options are never passed; None is dropped; pandas versions are compared as strings; compression=None drops the other options of the polars Parquet writer; a buffer as location raises after the data was read or written; adapters that copy their options refuse open files and turn dataclass instances into dicts; na_values of the Excel reader is refused.

### C88 Run recorders record what a run did and leave it alone — partial

*Modelled:* The hooks of the four adapters as state machines over what they write to (the MLflow server with its active run, the working directory and the database of experiments, the list of events, the list of messages), and the driver's way of calling them (`drive`): hooks may raise, the hook after a failing node is called and may mask its exception, the hook at the end is not called if the one at the beginning raised. The specification (`Spec/Recorders`) computes the expected records from the run alone. Left out: experiments and descriptions of MLflow, config and graph files, dates, source code.
*Proof:* Induction over the executions of a run with an invariant for each recorder (for MLflow: the run written to is the last one, and the graph differs from the original only in dependencies of savers already executed), then over the runs.

* `C88_mlflow_partial` (Recorders.lean): **C88, MLflow.** Any number of executions with one tracker, one after the other, each of which it can record: every execution ends as it would by itself; the server has one more run for each, with the identifier and version of the execution, its configuration and inputs as parameters, one entry for each saver with a path and each final variable that was computed, in order, and the status `FINISHED` or `FAILED`; the registry of models knows which node, function and tags each registered model comes from; no run is left active. Partial: see `Trackable` for the executions that are excluded, and the violations below.
* `C88_experiment_partial` (Recorders.lean): **C88, experiments.** An execution with a new tracker that it can record ends as it would by itself; its record is stored under the identifier of the tracker, other records stay; the record tells whether the execution succeeded, its version, modules, configuration, inputs with defaults, overrides, and what each saver wrote and where; savers were executed in the directory of the run, all other nodes in the directory the process was in, and the process is back there. Partial: see `Experimental` for the executions that are excluded, and the violations below.
* `C88_lineage_partial` (Recorders.lean): **C88, OpenLineage.** An execution ends as it would by itself, and the events are exactly: one `START` with version, final variables, names of inputs and overrides; one `RUNNING` for each saver and loader that succeeded and has metadata, with the data set; one `COMPLETE`, or one `FAIL` with the exception. Partial: metadata of data that is no frame is excluded, and loaders whose node has no dot in its name; see the violations below.
* `C88_lineage_separate` (Recorders.lean): **C88, OpenLineage, several executions at once.** However the hooks of several executions come one after the other, the events of an execution are those that its own calls alone would have given, in that order.
* `C88_slack` (Recorders.lean): **C88, Slack.** Each execution ends as it would by itself, and there is one message for each execution in which a node failed, with the run, the node and the exception, and no other.
* `C88_violated_no_inputs` (Recorders.lean): **C88 is violated** by MLflow and executions without inputs (`inputs` is optional for the driver): the execution ends with an AttributeError before any node is executed, its run stays active for ever, and the next execution fails because of that.
* `C88_violated_masked` (Recorders.lean): **C88 is violated** by MLflow and final variables that fail: the exception of the user is replaced by that of the tracker.
* `C88_violated_failed_value` (Recorders.lean): **C88 is violated** by MLflow and final variables that fail: `None` is logged as the result of a node that has none.
* `C88_violated_two_sources` (Recorders.lean): **C88 is violated** by MLflow and savers with several dependencies: which node the figure, and hence the log, comes from is chosen by `set.pop`.
* `C88_violated_twice` (Recorders.lean): **C88 is violated** by MLflow and savers that are executed several times in a run (in parallel blocks): the second time fails.
* `C88_violated_run_id` (Recorders.lean): **C88 is violated** by MLflow and the argument `run_id` ("Run id to log to an existing run"): the run is not logged to.
* `C88_violated_overlap` (Recorders.lean): **C88 is violated** by MLflow and two executions at once with one tracker: the second cannot start, and what the first logs from then on is found in the run of the second.
* `C88_violated_second` (Recorders.lean): **C88 is violated** by experiments and a tracker that is used for two executions: the record of the first is replaced, and the inputs and materializations of the first are in the record of the second.
* `C88_violated_saver_fails` (Recorders.lean): **C88 is violated** by experiments and savers that fail: the exception is replaced, the process stays in the directory of the run, and there is no record at all.
* `C88_violated_no_path` (Recorders.lean): **C88 is violated** by experiments and savers that tell no path (those of databases): the execution fails because of the tracker, although nothing else did.
* `C88_violated_experiment_no_inputs` (Recorders.lean): **C88 is violated** by experiments and executions without inputs, when the graph has an input (even one with a default).
* `C88_violated_no_frame` (Recorders.lean): **C88 is violated** by OpenLineage and loaders of data that is no frame (a series, or all sheets of a workbook): the execution fails because of the adapter.
* `C88_violated_format` (Recorders.lean): **C88 is violated** by OpenLineage and functions that are data loaders: the type of the file is reported as unknown.

*Status:* Proved for the executions each recorder can record (Trackable, Experimental, framed and visible metadata); Slack and the separation of overlapping OpenLineage runs hold without conditions. Violated: MLflow without inputs fails and leaves its run active, failing final variables mask the exception or log None, savers with several dependencies or executed twice, run_id, overlapping executions; experiments: second execution, failing savers, savers without path, no inputs; OpenLineage: data that is no frame, type of files of @dataloader.

### C89 Caching is transparent in task-based execution — partial

*Modelled:* The three hooks of the caching adapter with a task identifier (`preNode`, `doNode`, `postNode`) and the helpers that choose between one version for a node and one per task (`roleOf`, `memVersion`, `setEntry`, `lookupDep`); a run is a list of steps (node, task, where each argument comes from), executed with and without the adapter. The race on `_set_memory_metadata` is a machine of two threads (`interleave`). `Run.Valid` says which schedules are meant; that the grouping strategies of the library give such schedules is not proved. Left out: loaders, savers, formats, logging, process pools.
*Proof:* Invariant over the steps of a run (every recorded version denotes the value of its node in its task; every key in the store denotes the result of a function of its arguments up to the order of collected items), kept by each hook; then induction over the history. Threads: invariant over the interleaving. Running again: both runs in lockstep with equal versions in memory, hence equal keys; what the stores have is never lost.

* `C89_transparent_partial` (TaskCache.lean): C89: after any history of runs, of any dataflows and with any changes of code and inputs in between, and any deletions from the stores, a run with the cache gives every node in every task the value, and ends with the exception, of the run without cache. Missing: what `Run.Valid` and `OrderFree` exclude; three of these exclusions are necessary, see the `C89_violated` theorems.
* `C89_again` (TaskCache.lean): C89, running again: if all values can be fingerprinted and nothing is disabled, then after a run, and any further runs of any dataflows, the same run executes only nodes that are to be recomputed, parallelizable nodes, and a node that raised.
* `C89_threads_partial` (TaskCache.lean): C89, two threads: once some branch has recorded a version for a node of the block, two further branches that record theirs at the same time, in any interleaving of their statements, both find their own version again. Missing: the first two branches, see `C89_violated_threads`.
* `C89_violated_by_level` (TaskCache.lean): C89 as stated does not hold: when nodes are grouped by level, a node that depends on a node of another level cannot be executed with a cache, although it can without.
* `C89_violated_order` (TaskCache.lean): C89 as stated does not hold: when the items come in another order than in an earlier run, the node that collects them gets the result for the earlier order.
* `C89_violated_threads` (TaskCache.lean): C89 as stated does not hold: of two threads that record the first versions for a node of the block at the same time, one can lose its version, and the next node of its branch cannot be executed.

*Status:* Proved for schedules in which arguments come from the user, the configuration, the same task, a task of their own, a collecting node or a parallelizable node, and for functions that do not depend on the order of what they collect. Violated: nodes grouped by level (TypeError), another order of collected items, two threads that record the first versions of a node of a block. C89_again: for values with fingerprints and nothing disabled. Assumed: fingerprints, uuids and code versions without collisions.

### C90 The log of the cache tells what a run did — partial

*Modelled:* The events that each hook of the caching adapter logs on each path (`preLog`, `doLog`, `postLog`, `startLog`), next to the model of the hooks of C89; reading the log (`logsOf`, `allLogs`, `viewRun`) and `_log_event` for several runs. What was executed is read off the calls of the functions in the model of the hooks, not off the log. Left out: messages, values and timestamps of events, the log file, the drawing.
*Proof:* The log of one node agrees with what `do_node_execute` did, by cases over its paths; then induction over the steps with the invariant of C89 (no hook raises, retrieved values are those of the functions). Reading: the grouped log has under each key the events with that key in order.

* `C90_log_partial` (CacheLog.lean): C90: in the log of a run at level "info", a node that got a value in a task has exactly one event under its name and task (its name, without tasks): "execute" if its function was called in this run, "get result" if not. Nothing is listed for others, in particular for a node that raised. Missing: the runs that `Run.Valid` and `OrderFree` exclude.
* `C90_view_partial` (CacheLog.lean): C90, the picture of a run without tasks: `view_run` draws as final variables, inputs and overrides what was requested and given, and marks as "from cache" the nodes that have a value although their function was not called. A node that is both input and override is drawn as input only, see `C90_violated_override`.
* `C90_view_tasks` (CacheLog.lean): C90, with tasks: `view_run` refuses with `ValueError` as soon as a node got a value, instead of drawing something wrong.
* `C90_apart` (CacheLog.lean): C90, runs at the same time: when the events of several runs come in any order, the log of each run has exactly its own events, in the order they came, after what it had.
* `C90_violated_override` (CacheLog.lean): C90 as stated does not hold: a node given as input and as override is overridden, but drawn as an input.
* `C90_violated_missing_run` (CacheLog.lean): C90 as stated does not hold: `logs()` for all runs at level "info" has no entry for a run in which nothing got a value.

*Status:* Proved for the runs of C89 (`Run.Valid`, `OrderFree`). Violated: a node given as input and as override is drawn as an input only; logs() at level info has no entry for a run without values.

### C91 Results can be read from the cache after a run — partial

*Modelled:* The model of the hooks of C89; the two calls of the user are `get_data_version` without cache key (`getDataVersion`) and `get` of the result store. Left out: results materialised with `@cache(format=...)`, expiry, and deletions after the run.
*Proof:* No hook removes or replaces an entry of the result store (by cases over all hooks, then induction over steps and runs, without assumptions). Invariant over the steps of a run: each value computed so far is in the result store under the version in memory for its node and task; a version that was already in the store denotes the same value by the invariant of C89.

* `C91_read_partial` (CacheRead.lean): C91: after any history of runs and deletions, for every value that a run computed, also if it ended with an exception, the cache has a version, and the result store has that value, and nothing else, under that version, also after any further runs. Missing: parallelizable nodes, see `C91_violated_expand`, and what C89 excludes.
* `C91_version_partial` (CacheRead.lean): C91: versions tell values apart: if the cache gives one version for a node of a run and a node of a later run, then both have the same value.
* `C91_violated_expand` (CacheRead.lean): C91 as stated does not hold: a parallelizable node has a value, and its result is stored, but `get_data_version` has no version for it.

*Status:* Proved for the runs of C89 (`Run.Valid`, `OrderFree`), without parallelizable nodes, for which get_data_version has no version (violated).

### C92 Deprecated functions and decorators keep working until the announced version — partial

*Modelled:* Versions and their comparison, the checks of a notice, the action, decorated functions, and decorated classes: attributes `__call__` and `__old_call__` per class, their lookup through single inheritance, class statements in the order of the program, calls with a recursion limit. The six notices of the library with their versions. Left out: wording of messages, multiple inheritance, `super().__call__`, classes without `__call__`.
*Proof:* The comparison is the lexicographic order (by cases). Functions: by cases over the two comparisons, against a relation that lists the four effects; the relation determines the outcome. Classes: induction over the class statements, with the invariant that an implementation refers only to classes already there, so that newer classes do not change what older ones do.

* `C92_function_partial` (Deprecation.lean): C92: calling a deprecated function calls it with the same arguments and returns, or raises, the same, with one warning once the version given for warnings has passed; after the version given for failures it raises and the function is not called. Missing: the two versions themselves, see `C92_violated_starting`.
* `C92_one_effect` (Deprecation.lean): C92: exactly one of the effects applies.
* `C92_declaration` (Deprecation.lean): C92: a notice is accepted iff it has a replacement or a guide, failures start with a major release (from 1.0.0 on), and not before the warnings.
* `C92_upgrade` (Deprecation.lean): C92: upgrading never brings back what is gone, and does not skip the warnings: what raises in one version raises in all later ones, and an accepted notice whose warnings come first warns, and works, in the version announced for the failure.
* `C92_class_partial` (Deprecation.lean): C92: calling an instance of a class of a program, whichever classes have notices, does what the notice of its class says, and then runs the method of its class, or what its base does, with the notice of the base. The recursion limit plays no role. Missing: the two versions themselves, and a class with two notices, see `C92_violated_starting` and `C92_violated_twice`.
* `C92_one_call` (Deprecation.lean): C92: that determines what happens.
* `C92_announced_partial` (Deprecation.lean): C92: `raw_execute`, `parametrized`, `parametrized_input` and `parameterized_inputs` warn and work in every version after 1.10.0 up to 2.0.0, and raise in later ones. Missing: `dynamic_transform` and `pipe`, see below.
* `C92_violated_dynamic_transform` (Deprecation.lean): C92 as stated does not hold: `dynamic_transform` warns in no version, although warnings are announced from 1.20.0 on.
* `C92_violated_pipe` (Deprecation.lean): C92 as stated does not hold: `pipe` raises in no version, although it is announced to fail from 2.0.0 on.
* `C92_violated_starting` (Deprecation.lean): C92 as stated does not hold: in the version in which warnings are announced to start there is none, and in the one in which failures are announced to start there is only a warning.
* `C92_violated_twice` (Deprecation.lean): C92 as stated does not hold for a class with two notices: with any recursion limit, calling an instance ends in that limit.

*Status:* Proved with 'after the version' in place of 'from the version on'. Violated: in the two announced versions themselves nothing changes; dynamic_transform never warns and pipe never fails, whatever version is installed; a class with two notices recurses without end.

### C93 Extensions are loaded as switched, and their types are found — partial

*Modelled:* A machine with the configuration file and the running process (environment variable, imported extensions, registered types, whether extensions were loaded); the switches, `load_extension`, importing the driver and starting a new process are actions on it. Importing an extension works, cannot be done, or raises something else, as given for each extension. Registration and search of types. Left out: comments and case of names in the configuration file, what the extensions do besides registering types, partial imports.
*Proof:* Invariants over sequences of actions: the variable in the file, the variable in the environment, and which extensions are there; induction over the list of extensions for the import of the driver. Types: the registry holds the last registration of each extension (induction over registrations), and the search goes through it.

* `C93_other_options` (Autoload.lean): C93: none of the switches touches other options of the configuration file.
* `C93_config_off` (Autoload.lean): C93: after `config_disable_autoload`, unless `config_enable_autoload` was called later, a new process, whatever its environment and whatever is done in it except for `enable_autoload`, has only the extensions that the user loads.
* `C93_off` (Autoload.lean): C93: the same after `disable_autoload` in the process itself.
* `C93_config_on` (Autoload.lean): C93: after `config_enable_autoload`, unless `config_disable_autoload` was called later, importing the driver in a new process, with nothing in its environment and not switched off in it, raises nothing and loads all extensions that can be imported, if none is broken.
* `C93_column_type_partial` (Autoload.lean): C93: after any registrations, the column type found for a data frame type is one that some extension registered with it last; the search fails with `NotImplementedError` exactly if no extension has that data frame type; and if one extension has it, with a column type, that one is found. Missing: extensions without column type, see `C93_violated_spark`.
* `C93_dataframe_types` (Autoload.lean): C93: the data frame types listed are those registered last.
* `C93_violated_enable` (Autoload.lean): C93 as stated does not hold: `enable_autoload` raises `KeyError` where nothing was switched off.
* `C93_violated_running` (Autoload.lean): C93 as stated does not hold: `config_enable_autoload` does not switch on in the process that calls it; worse, what was switched on there before is switched off by it.
* `C93_violated_broken` (Autoload.lean): C93 as stated does not hold: an extension whose import raises something else than an import error, as with a library in an unexpected version, makes the import of the driver fail, also if the user does not use that library.
* `C93_violated_spark` (Autoload.lean): C93 as stated does not hold: for an extension without column type the search ends in a `KeyError`, which `@extract_columns` does not turn into the exception for unsupported types, and the column types of all other extensions cannot be listed.

*Status:* The switches over several processes are proved in full for new processes. Violated: enable_autoload raises KeyError where nothing is switched off; config_enable_autoload does not switch on in the running process, and switches off what was switched on there; an extension that raises something else than an import error makes the import of the driver fail; extensions without column type (spark) give KeyError.

### C94 Modules made on the fly hold the functions given — partial

*Modelled:* A heap of function objects and `sys.modules`; `_copy_func`, the loop of `create_temporary_module`, executing the statements of a source, `find_functions`, and signatures and calls with keyword arguments. Annotations are shared between original and copy, as in the code (changes of the dictionary itself are seen by both).
*Proof:* The loop is characterised in both directions by induction over the arguments: it succeeds exactly under the stated conditions, and the result is the list of names with fresh identities. Calls of copy and original are compared by induction over the parameters. Sources by induction over the statements. Violations are concrete.

* `C94_accepted` (TempModule.lean): A temporary module is made exactly if the name is free, all arguments are functions, and their names differ and do not start with an underscore.
* `C94_functions_partial` (TempModule.lean): The driver finds in the temporary module one function for each one given, a new object under the same name that has the same annotations and decorators, the docstring written in the function, if there are no defaults of keyword-only parameters, the same signature, and the same result in every call that does not rely on such defaults.
* `C94_untouched` (TempModule.lean): Whatever happens, the functions given and the other modules stay as they are; an error leaves `sys.modules` as it is.
* `C94_independent` (TempModule.lean): Decorating or renaming the given functions afterwards does not change what is found in the module, and the other way round.
* `C94_source_partial` (TempModule.lean): A module from a source holds what the source defines: the driver finds the last definition of every name that does not start with an underscore, with all its defaults, and nothing but definitions of the source and imported functions whose module has a name the name of the new module occurs in; the other modules and all functions stay as they are.
* `C94_violated_keyword_only` (TempModule.lean): The copy of a function has lost the defaults of its keyword-only parameters: a call that works with the function given is a `TypeError` in the temporary module.
* `C94_violated_doc` (TempModule.lean): A docstring that was set (as `functools.wraps` does) is lost.
* `C94_violated_source` (TempModule.lean): `module_from_source` replaces a module of the name, also if the source then raises; what the source had defined until then stays registered, and the name is taken for `create_temporary_module`.
* `C94_violated_imported` (TempModule.lean): In a module called `a`, functions imported from `pandas` are taken for functions of the module.

*Status:* Acceptance, untouched originals and independence are proved in full. Violated: the copies lose the defaults of keyword-only parameters and docstrings that were set after the definition; module_from_source replaces a module of the same name, and one whose source raises stays registered; functions imported from a module whose name contains the name of the new module are taken for its own. Proved for calls that do not rely on keyword-only defaults, and for sources that run through.

### C95 Drivers and caches sent to another process behave as before — partial

*Modelled:* The `__dict__` of the adapter with the stores as values, `__getstate__` and `__setstate__` on it, the state and constructors of the stores, and trips through processes with working directories. A driver is its modules and attributes; finding specifications and importing are given for every process. Requests use `createFinalVars` of `Model/DryRun`.
*Proof:* One trip keeps stores and attributes, which is then iterated by induction over the trips. For drivers the lists of specifications and of imports are computed by induction over the modules; requests are compared one by one. Violations are concrete.

* `C95_cache_partial` (Pickling.lean): A cache with SQLite metadata and results in files can be sent through any number of processes. The last copy uses the same directories and connection, provided the path of the results is absolute or all processes work in the same directory, and all other attributes (settings, runs, versions, keys, logs) are the same.
* `C95_driver_partial` (Pickling.lean): A driver whose modules were imported under their own names can be pickled; loaded where no module raises anything but an import error, it has the modules that can be imported there, in their order, and the other attributes.
* `C95_requests` (Pickling.lean): The loaded driver accepts the same requests, as names, variables or functions, and asks for the same nodes, unless a function is requested whose module cannot be imported; if all modules can be imported, they are all there.
* `C95_refused` (Pickling.lean): Pickling raises exactly if the specification of some module is not found.
* `C95_violated_relative` (Pickling.lean): With the default path, a process in another directory uses the same metadata but looks for the results elsewhere.
* `C95_violated_memory` (Pickling.lean): A cache in memory cannot be pickled.
* `C95_violated_dropped` (Pickling.lean): A driver with a module that is not importable in the other process is loaded without it; a function of the module, which could be requested before, is refused.
* `C95_violated_temporary` (Pickling.lean): A driver made from a temporary module, or from `__main__`, cannot be pickled.

*Status:* Proved for caches on disk whose path is absolute or whose processes work in the same directory, and for drivers whose modules can be found under their own names. Violated: with the default relative path a process elsewhere shares the metadata but not the results; caches in memory cannot be pickled; modules that cannot be imported are dropped, so that their functions can no longer be requested; drivers made from temporary modules or __main__ cannot be pickled. Pickling of the attribute values themselves is assumed to work.

## 4. Disagreements between code and properties

Each item with a theorem name is machine-checked: the negation is proved with a concrete witness. The others were found
while modelling; they lie outside the modelled part or outside the stated properties and are recorded for completeness.

Execution and validation
* `Driver.validate_inputs` ignores overrides: overriding a required input without also passing it is rejected
  (`C07_violated`).
* An optional input that is supplied only through `overrides` is used by the run but is not part of the plan
  (`C11_violated`).
* Requesting an optional input that is not supplied returns `None` in the default mode (visible in `C01_execute_sound`),
  `KeyError` in task-based mode.
* `topologically_sort_nodes` silently drops nodes on or below cycles (`C12_sorted` states it).
* Circular dependencies are reported neither when the driver is built nor before a run, but by RecursionError during the run
  (`C54_needed_cycle_fails`); a deep acyclic chain exceeds Python's recursion limit as well (not modelled).
* `create_function_graph` with `fg=` mutates the nodes of the given graph.
* `Driver.materialize` refers to an unbound `function_graph` in its `finally` block if graph modification raises.

Task-based execution
* `prehydrated = {**overrides, **inputs}`: inputs win over overrides (`C21_violated`, `C19_violated`).
* An override of the collected node makes the collector see the empty list, an override of another node of a block ends in
  `KeyError` (`C56_violated_override`, `C56_violated_inner`).
* An empty plan never leaves INITIALIZED: endless loop (`C18_violated_empty`).
* A block that uses an earlier collected result breaks the default grouping (`C50_violated`).
* A node of a block used by a task outside of the block other than the collector: the call never ends
  (`C18_violated_block_use`).
* A collector directly on the expander receives a nested list (`C20_violated`); of two collectors of one expander one is never
  run (`C20_violated_two`), or its failure is lost (`C23_violated`).
* An overridden collector is submitted twice (`C17_violated`).
* Names with `:` (possible through decorators) collide with the keys of the result cache (`C24_violated`,
  `C16_violated_values`).
* Not proved but seen in the model: a plain task depending only on an expander is never realised; an overridden last node of
  a block makes the collector see `[]`, an overridden inner node makes the call raise `KeyError`; requesting a block node
  raises `KeyError`; a `Collect` parameter with a default and an input of that name; one pool executor used both as local and
  as remote executor (`RuntimeError`); `max_tasks=0` (hangs); task ids that are `.`.

Caching
* Input with the name of a function, renamed default parameter, loader whose data is a tuple: `C25_violated_input`,
  `C25_violated_default`, `C25_violated_loader`.
* Equal fingerprints of different values (`C27_violated`, `C27_violated_depth`); dicts with colliding keys depend on
  insertion order (`C28_violated`); the shape of numpy arrays is ignored; a list containing an unhashable object
  has a constant fingerprint.
* Cache keys of `a.b` and `ab` coincide, decoding breaks on a dash (`C29_violated`).
* SQLite keeps the first version (`INSERT OR IGNORE`) and loses its tables with `delete_all` (`C30_violated`); runs are
  reported differently by the two stores (`C30_violated_runs`); in-memory deletion leaves dangling run entries;
  `get_run` fails after a run with an IGNORE node.
* IGNORE does store results and metadata, under the key `None` (`C31_violated`).
* Data savers have a constant version: stale metadata (`C33_violated`).
* Loaders of `@load_from` ignore `default_loader_behavior` and `recompute=True` (`C34_violated_loader_default`,
  `C34_violated_everything`); a loader follows an unrelated node that has the name of its parameter.
* A torn result file makes every later run raise; `ResultRetrievalError` is never raised (`C51_violated`).
* The expiry of the file result store is never effective.

Lifecycle
* Interrupts: post hooks are told success, or are called though the node was not (`C35_violated_interrupt`).
* An exception of a post hook skips later hooks and masks the function's exception (`C35_violated_masked`); the stock
  type checker does this too.
* A function returning the sentinel counts as failed for `GracefulErrorAdapter` (`C36_violated_sentinel_value`).

Decorators and construction
* A WARN validator that raises fails the run (`C37_violated_warn`); a validator named `v_1` next to two validators named
  `v` duplicates a node name (`C37_violated_names`); stacked `@check_output` duplicate the `_raw` node;
  `@check_output` on a `Parallelizable` function makes both the raw and the final node expanders.
* `@config` renames function objects in place: rebuilding and stacking change names (`C38_violated_rebuild`,
  `C38_violated_stacked`, `C38_violated_private_name`). `hamilton.config` tags show only the last decorator's keys.
  `resolve_config` raises `KeyError` for a required key that is only in the optional defaults.
* `@parameterize` with a source that is an absent optional input: `KeyError`, or another parameter's literal leaks in
  (`C39_violated_default`, `C39_violated_leak`); names of the wrapper's own parameters are captured.
* `@subdag`: configuration cannot replace a function (`C40_violated_config`); an input mapped to a node and used only by the
  decorated function is not created (`C40_violated_unused`).
* `@extract_fields` on a function called `field_to_extract` (`C41_violated_name`); filling mutates the function's dict.
* `select_nodes`: a target listing a name twice is refused; an unknown name can go unnoticed when duplicate node names make
  the lengths match.
* `with_columns` accepts mutually exclusive arguments together.
* `Builder.copy` drops `allow_module_overrides` (`C43_violated_copy`); `build` appends the legacy adapter each time
  (`C43_violated_rebuild`); `with_config` after `build` changes the built driver (`C43_violated_driver`);
  `with_execution_manager` does not check the local executor, which is then ignored (`C55_violated_local`); `with_adapters`
  accepts two caches in one call (`C55_violated_caches`).
* `is_submodule` is a substring test (`C45_violated_foreign`).
* Materializers: existing `load_data.<target>` node replaced (`C46_violated_clash`); two arguments with the same source,
  source named like a literal argument, saved node named like an argument, duplicate ids (`C53_violated_source`,
  `C53_violated_literal`, `C53_violated_saved`, `C53_violated_ids`).

Async
* Keyword arguments are sorted by name (`C47_violated_order`); a requested name that is only an input raises `KeyError`
  (`C47_violated_input`); inputs are not validated; after an error the other tasks keep running.

Types
* Unrelated bare generic classes match, since `get_origin` is `None` for both (`C49_violated_generic`).
* A union on both sides is accepted only when equal (`C49_violated_union`).
* Acceptance depends on the order of functions that declare one input with different types (`C49_violated_order`).
* `Tuple[...]`/`Callable[...]` inputs are always rejected by the input check (`C49_violated_tuple`); `Mapping[...]` rejects a
  dict, generics reject instances of subclasses (`C49_violated_mapping`).
* `issubclass` against the non-runtime protocols `Parallelizable`/`Collect` raises `TypeError` (bare `Collect` parameter).
* Only the first item of a sequence is checked.

Pipes
* A literal for a step parameter called like the node it is chained to is passed to the first parameter: `@pipe_input(step(mul,
  y=5)) def f(y)` silently computes with 5 instead of `y` (`C57_violated_literal`); one node for two arguments of a step raises
  `TypeError` (`C57_violated_same_source`); an unmentioned default of a step function is replaced by a node or input that
  happens to have the parameter's name (`C57_violated_default`).
* `on_input` that names no parameter is ignored: the first parameter is piped (`C57_violated_on_input`).
* `@pipe_output` ignores the namespace of its steps (`C57_violated_namespace`); `_f` and `f` get one generated name
  (`C57_violated_names`); two `@pipe_output`s on one function both define `<name>.raw` (`C57_violated_stacked`).
* `@pipe_output` on an `async def` always raises `ValueError`: the closing step has no return annotation
  (`C57_violated_async`).
* `@mutate` of a function with a restricted `@pipe_output` is restricted too (`C58_violated_on_output`); with two of them the
  mutation is added to both (`C58_violated_stacked`).

Code versions
* Steps of `@pipe_input`, `@pipe_output` and `@mutate` originate from the decorated function: editing the function applied in a
  step changes no version, `hamilton diff` reports nothing and a cached result of the step is still used
  (`C59_violated_step`). The same holds for values in variables that a decorator is given (`C59_violated_edges`).
* An input gets the version of the first function using it, so it is reported as edited with that function
  (`C59_violated_input`), or because another function was added (`C59_violated_added`).
* Indented source does not parse; then comments count (`C59_violated_indented`).
* Nodes without version are reported as added and as removed, and `hash_dataflow` raises `TypeError`, while
  `HamiltonGraph.version` skips them (`C59_violated_none`).

Stacks of decorators
* A decorator made by `@resolve` is applied after all others of its kind, also those written above it (`C60_violated_order`),
  its `validate` is never called (`C60_violated_validate`), and its configuration must be there although the function is
  excluded by `@config.when` (`C60_violated_dropped`). Without the power-user key in the configuration, `@resolve` raises
  `KeyError` instead of the message that explains the key.
* A decorator that adds nodes in front of a function (`@pipe_input`, `@load_from`) and one that expands it (`@parameterize`,
  `@extract_columns`) can be written together, but building then raises a bare `ValueError` (example in `StackSample`).

Data adapters
* "Any should always get last priority" (adapters.py:112-116) holds for loaders only: a saver for `Any` applies to every type and
  wins if it is registered last (`C61_violated_any_saver`).
* The choice ignores the arguments: registering a second loader for a type under a name breaks existing uses of the first one
  (`C61_violated_arguments`).
* The cache uses the adapters registered *first* under a format, so a user's adapter that replaces a built-in one elsewhere is
  ignored there (`C61_violated_cache`); and it asks for loaders of a superclass instead of a subclass, so a cached `MyDict` comes
  back as a `dict` (`C61_violated_cache_loader`).
* `@load_from` validates against the type with all `Annotated` removed, but the node is built with them
  (`C61_violated_annotated`).

Runtime type checking
* `Tuple[int, str]` is checked as if it were `Tuple[int, ...]`, so `(1, "a")` is rejected and `(1, 2)` accepted; `Tuple[()]` raises
  `IndexError` (`C62_violated_tuple`).
* `FrozenSet[int]`, `Callable[…]`, `Iterator[int]`, `Annotated[…]`, user-defined generic classes and `list[int] | None` make the check
  raise whatever the value is (`C62_violated_raises`, `C62_violated_annotated`).
* The hook after a node also checks the `None` of a node that failed, and its `TypeError` replaces the original exception
  (`C62_violated_masks`); `Parallelizable` and `Collect` annotations are never satisfied (`C62_violated_parallel`).

`@does`
* `map_kwargs` deletes the old name of a parameter while it renames: a parameter under two names raises `KeyError`
  (`C63_violated_twice`), chains of renamings pass stale arguments or lose some depending on the order (`C63_violated_chain`).
* A parameter whose name is given to another one is dropped silently (`C63_violated_dropped`).
* The test for emptiness compares bytecode without constants, so `return 5` counts as empty (`C63_violated_not_empty`).
* `validate` says it checks the return type, but it does not; the constructor is annotated to accept lists of names, which fail
  with `TypeError`.

Hooks around runs
* `execute`, `materialize` and `base_execute_task` start with `success = True` and only `except Exception` changes it: an
  interrupted run is reported as a success (`C64_violated_interrupt`, `C64_violated_task_interrupt`).
* `pre_graph_execute` is called outside the `try`: when one raises, the adapters before it never hear of the end
  (`C64_violated_pre_raises`). A `post_graph_execute` that raises replaces the result or the exception
  (`C64_violated_post_raises`).
* Hooks are deduplicated by `==`, validators and methods by hash: of two equal adapters one is ignored (`C64_violated_equal`).
* The asynchronous driver builds the result after reporting success (`C64_violated_async_build`).
* `materialize` evaluates `function_graph` in its `finally` block even if it was never bound (`C64_violated_materialize_unbound`),
  and calls the hooks for the end of the run when the validators rejected the graph (`C64_violated_materialize_validators`).
* Messages of validators are joined although they may be `None` (`C64_violated_no_message`).
* `execution_path` lists overridden nodes (`C64_violated_execution_path`), which are not run.
* When the result builder of `execute` raises, the hooks get the raw dictionary as `results` together with `success=False`.

Deprecated caching adapters
* The key is the hash of the source and the values of the arguments, not the node: the extractors of `@extract_fields` and
  `@extract_columns`, and `@parameterize` nodes whose bound values are in partials, share their entries
  (`C65_violated_same_source`).
* The names of the arguments are not part of the key (`C65_violated_optional`).
* `CacheAdapter` stores under the source remembered from the last miss of a node of that name, also when the value came from the
  cache of another graph (`C65_violated_two_graphs`).
* `DiskCacheAdapter` stores `None` for a function that raised and never replaces it (`C65_violated_failed_once`).
* `evict_all_except` removes one occurrence of the version to keep from the history and evicts the others
  (`C65_violated_evict`); it raises `ValueError` if the current version was never run (`C65_violated_evict_edit`).
* Results `None` are recomputed every time. `DiskCacheAdapter` hashes the callable without unwrapping partials, which raises
  `TypeError` for nodes of `@parameterize`. Both adapters fix the list of nodes at the first graph they see.

`CachingGraphAdapter`
* `computed_nodes` is cleared by `build_result` only: after `raw_execute`, `materialize` or a failed run the next run recomputes
  cached nodes although their files exist and nothing is forced (`C66_violated_leftover`).
* What depends on a recomputed node is only recomputed in the same run: a run that does not ask for it leaves its file stale, and
  a later run mixes old and new values (`C66_violated_part`).
* `force_compute` only matters for nodes with the tag: forcing another one does not recompute what depends on it
  (`C66_violated_uncached`), although the documentation of the parameter says "Set of nodes that should be forced to compute".
* Inputs are not part of the file name (`C66_violated_inputs`).
* The JSON and pickle writers open the file before they serialize: after a failure the rest of it counts as the cached value
  (`C66_violated_broken`).
* An unknown format raises `ValueError` only after the function was called.

Result builders
* `build_dataframe_with_dataframes` raises if a series or value has the name of an earlier column, but the columns of a frame
  overwrite earlier outputs silently (`flattened_outputs.update`): asking for `sub.x` and then for a frame `sub` with a column `x`
  loses the first (`C67_violated_overwrite`); in the other order it raises.
* `NumpyMatrixResult` with numbers only: `[val] * -1` is empty, and the values are lost (`C67_violated_scalars`). With vectors of
  length 1 a number is passed to `list` and a `TypeError` is raised (`C67_violated_one_row`).

`@with_columns`
* `chain_subdag_nodes` assigns `self.select` if it is `None`. The decorator object lives as long as the module, so the first driver
  decides for all others: a later driver with another configuration raises `ValueError` (a function is missing) or silently lacks
  columns (`C68_violated_select`), and a later driver with the same configuration lacks nodes that the first one has
  (`C68_violated_rebuild`).
* `validate_dataframe` compares with `isinstance(type, DataFrame)`, which is never true: the type of the parameter is not checked.
* The constructor accepts neither of `columns_to_pass` and `on_input`; building the driver then fails with a `TypeError`.

Default validators
* The example in the documentation of `@check_output` uses `data_in_range=(0, 100)`; no validator has this argument (it is called
  `range`), so the example raises `ValueError` (`C69_violated_docs`).
* Importance "warn" promises a warning only, but a value the validator cannot compare (for example `None`) makes the node of the
  validator raise and fails the run (`C69_violated_warn`).
* For a function declared `-> Optional[float]` all arguments but `allow_none` raise: `issubclass` raises `TypeError`, or no
  validator is found (part of `C69_accepted`).
* A missing entry counts as out of `range`, but is ignored by `values_in`; `max_standard_dev` rejects every series with a single
  number and `mean_in_range` every series without one (NaN compares as false). This is how `Promise` is stated.

Extracting columns
* `@extract_columns(("c", "docs"), fill_with=0)`: the filling loop uses the pair itself as label. The column `c` is not filled (its
  node raises), and every dataframe gets an additional column labelled `("c", "docs")` (`C71_violated_documented`).
* `fill_with` and polars: `fill_with_scalar` returns a new dataframe, which is dropped; the assertion after it fails
  (`C71_violated_polars`).
* A function called `column_to_extract`: the extractors raise `KeyError` (`C71_violated_name`).
* `@parameterize_extract_columns(..., reassign_columns=False)` renames the columns all the same: the function that is chosen is
  only used for its documentation (`C72_violated_reassign`).
* The same decorator calls the function itself and not that of the node it is given, so that `@does` has no effect
  (`C72_violated_does`); and it does not run the validation of `@parameterize`, so that misspelled parameters are ignored
  (`C72_violated_misspelled`).
* Both decorators change the dataframe the function returns in place; if that is one of its inputs, other nodes see the change.
  Values are immutable in the model, so this is not covered.

Loader and saver functions
* `@dataloader()` and `@datasaver()` look at `inspect.signature(fn).return_annotation`, which is a text under
  `from __future__ import annotations`: every function of such a module is refused (`C70_violated_postponed`).
* `@dataloader()` in a `@subdag`: the nodes are renamed, the tag `hamilton.data_loader.node` is not. `with_cache(recompute=["sub.load"])`
  (or any other behaviour) is overwritten by the default for both nodes (`C70_violated_subdag`).

Metadata decorators
* `SchemaOutput.allows_multiple` is False, and `__call__` looks at the decorators below: `@schema.output` above `@tag` raises
  `ValueError`, `@tag` above `@schema.output` is accepted (`C73_violated_order`, `C60_violated_exclusive`).
* `@tag_outputs` builds its inner `tag` after validation and never validates it: reserved keys, keys that are no identifiers and values
  that are no strings are accepted (`C73_violated_outputs`).
* `@ray_remote_options` has no `target_`: on a function whose nodes depend on each other (`@extract_columns`, `@with_columns`,
  `@check_output`) the options go to the final nodes, not to the one that calls the function (`C73_violated_ray`).
* Not in the model: a bad value of `@tag` that cannot be hashed (a dict) raises `TypeError`, not `InvalidDecoratorException`.

Schema validation
* `human_readable_diff` looks into the entry `__metadata` whatever it is. Without `check_schema_metadata` the entry is EQUAL if the
  documentation and the version of the node have not changed, and its value are texts: `AttributeError`. So with the default settings
  a change of the data without a change of the function raises, also with `importance="warn"` (`C74_violated_unchanged_node`).
* It tests `diff_result.value.get("cur")` for truth: a change of `nullable` from True to False raises (`C74_violated_nullable`), as does
  a documentation or field metadata that became empty.
* `check_field_metadata` looks for `metadata` in the difference of the metadata of the schemas: `KeyError` if the version or the
  documentation of the node changed (`C74_violated_field_metadata`).
* `Path.with_suffix` replaces what follows the last dot: the nodes `sub.x` and `sub.y` share the file `sub.schema`
  (`C74_violated_subdag`).
* A mere change of the order of the fields gives a difference in which every field is EQUAL.

Execution on a cluster
* The arguments of a function are passed to `call_lifecycle_method_sync` and `do_remote_execute` as keyword arguments, beside their own
  parameters: a function with a parameter `node`, `method_name`, `self` or `execute_lifecycle_for_node` raises a `TypeError` with Ray
  (`C75_violated_reserved`), one with `dask_key_name` with Dask.

Usage telemetry
* `send_event_json` raises a `RuntimeError` when telemetry is off. The driver and the command line ask first; functions of
  `hamilton.dataflows` and the import of contributed dataflows do not: with telemetry off they all raise
  (`C76_violated_dataflow`, `C76_violated_contrib`). They also bypass the limit of ten events per process (`C76_violated_limit`).
* A configuration file that cannot be parsed (for example `telemetry_enabled = false` without the section header) is treated as empty and
  overwritten: the opt-out is lost (`C76_violated_config_lost`).
* Frames of tracebacks are taken to be the library's own if one of the last four components of the path is `hamilton`: user code in such a
  directory is reported with file name, line and function (`C76_violated_folder`).
* The number of inputs in the event of an execution is looked up under the condition for overrides (driver.py:693): without overrides it
  is 0, with overrides and without inputs no event is sent. A failed construction sends no event, because the executor is not set yet.

From functions to nodes
* A positional-only parameter is a dependency like any other, but the call with keyword arguments raises a `TypeError`
  (`C77_violated_positional`); `*args` likewise.
* `**kwargs` is one required dependency called like the parameter; its value arrives under that name inside of the dictionary
  (`C77_violated_kwargs`).
* A second name for a function in its own module (`cost = spend`) makes construction fail with "Cannot define function spend more than once"
  (`C77_violated_alias`).

Drawings
* The legend uses its class names as identifiers of boxes, so a function called `output`, `input`, `function`, `config`, ... is merged with
  the entry of the legend (`C78_violated_legend_name`).
* `visualize_execution` of an input that no requested function consumes draws no box and no table for it (`C78_violated_requested_input`).
* Arrows into an overridden function are drawn when their source is drawn for another reason (`C78_violated_override_arrow`).
* Boxes of the configuration have no entry in the legend unless a function carries a `hamilton.config` tag; with `hide_inputs` the legend
  still has the entry for inputs (`C78_violated_legend_config`, `C78_violated_legend_inputs`).
* The comment at graph.py:274-278 says that name and type are escaped; only the type is (`C78_violated_label`).

Spark UDFs
* `PySparkUDFGraphAdapter` clears its table only in `build_result`; after an execution that failed the next one computes on the old
  table (`C79_violated_after_failure`).
* Parameters are looked up among the columns before the arguments, so a column with the name of a scalar input or of a value computed
  on the driver shadows it (`C79_violated_scalar_column`); of two tables the second is ignored (`C79_violated_two_tables`).
* With outputs that Spark does not compute `build_result` fails with an AttributeError (`C79_violated_driver_side`).
* The check that a UDF adds a column compares with the argument's table instead of the current one: a function named like a column is
  only noticed if it runs first, later it replaces the column (`C79_violated_replaced`).

Spark columns
* In the UDFs made by `@with_columns` every parameter that is called like a column of the table is taken from the table, also if it is
  not among `columns_to_pass` and the dataflow computes it (`C80_violated_shadowed`).
* `mode="append"` "will keep all original columns", but the columns of unselected functions are dropped by name at the end, and so is
  an original column with that name (`C80_violated_column_dropped`).
* "if [columns_to_pass] is left empty … we will assume that all dependencies come from the dataframe": they become required inputs of
  the driver, whose values are then ignored (`C80_violated_no_columns`).
* `columns_to_pass` is not compared with the columns of the table: for a parameter with a default a misspelt column goes unnoticed
  (`C80_violated_missing_column`).

Dry runs
* The type annotations of `validate_execution` admit functions and `Variable`s, but it does not convert them: a TypeError is raised
  (`C81_violated_function`), where the documentation promises a ValueError "if any issues … can be detected".
* `convert_output_values` tests `if _val:`, so a requested empty string disappears (`C81_violated_empty`).
* Without networkx `has_cycles` logs an error and answers False (`C81_violated_networkx`).
* `validate_materialization` is "effectively .materialize() with a dry-run", but does not check that something is requested
  (`C81_violated_nothing`).

Kedro pipelines
* The base node of a Kedro node with several outputs is named after the function, so two nodes that use one function collide, and the
  second no longer converts its tuple (`C82_violated_reused`).
* `expand_k_node` sets `func.__annotations__["return"] = Dict` on the user's function: making a second driver of the same pipeline gives
  a driver that cannot compute the outputs (`C82_violated_again`).
* `len(node_names) == 1` treats `["d"]` like `"d"` (`C82_violated_single`); `zip` hides a wrong number of components
  (`C82_violated_length`); `node.outputs` of Kedro forgets the keys of a dictionary, so entries are looked up by the name of the dataset
  (`C82_violated_keys`).
* `params:x` becomes `x`, like the dataset `x` (`C82_violated_parameter`); `reassign_inputs` inverts the renaming, so a dataset passed
  twice is passed once (`C82_violated_twice`); a parameter with a default that is not fed is wired by its name
  (`C82_violated_default`).
* `issubclass(Tuple[int, int], Tuple)` raises (`C82_violated_annotation`).

The `@parameterize` family
* `@parameterize_values` is keyed by pairs of an output and a docstring, so one output can be given twice; the comprehension keeps the
  last (`C83_violated_values`). `@parametrized_input` likewise (`C83_violated_input`).
* Types are pulled out of `Optional` by `get_args(…)[0]`: `Union[None, List[int]]` is refused for a group (`C83_violated_order`), and a
  parameter annotated `None` raises an `IndexError` whatever replaces it (`C83_violated_annotation`).
* The docstring of the function is always formatted as a template; a docstring with braces raises `ValueError`, which is not turned into
  an `InvalidDecoratorException` (`C83_violated_braces`).
* `@parameterize()` and `@parameterize_values(p, {})` are accepted and the function has no nodes at all, while
  `@parameterize_sources()` is refused (`C83_violated_empty`).

Tracing adapters
* Datadog: causal links are looked up under the task of the node that is about to run, so what was computed in another task, or
  outside of tasks, is not linked (`C84_violated_links`).
* OpenTelemetry: the token stack and the current span are context variables, which pool threads do not inherit; a task in a
  `MultiThreadingExecutor` is a trace of its own (`C84_violated_threads`).
* Progress bar: the total includes overridden nodes, which are never run (`C84_violated_overrides`); if nothing has to be computed,
  `max([])` raises and the run fails (`C84_violated_nothing`); the width of the first run is kept for later ones, and below three the
  ellipsis alone is wider (`C84_violated_narrow`).

Result stores
* `FileResultStore._load_result_from_path` catches `FileNotFoundError` around the loader as well: if the file of a format was removed,
  `exists` is true and `get` returns `None`, which the adapter takes for the cached value (`C85_violated_removed`). `ResultRetrievalError`,
  which the adapter would handle, is raised nowhere.
* `with_suffix` replaces what follows the last dot, so data versions with dots (`<namespace>.<saver>__metadata`) share files
  (`C85_violated_dots`).
* `delete_expired` unpickles every file of the directory, by default also the database of the metadata store and what savers wrote; no
  result in a file has an expiry. `delete_all` removes the database, too (`C85_violated_expired`).
* `InMemoryResultStore` has no `_materialized_path`: `@cache(format=...)` fails with it; its `delete` raises for what is absent
  (`C85_violated_memory`).

Moving a cache
* `persist_to` and `get_run` look up deleted keys (`C86_violated_deleted`); the key `None` of ignored nodes cannot be decoded
  (`C86_violated_ignored`); `INSERT OR IGNORE` keeps other versions (`C86_violated_other`); runs are appended again each time
  (`C86_violated_twice`); missing results are loaded as `None` (`C86_violated_missing`, a TODO in the code).

Options of data adapters
* Never passed on (`C87_violated_dropped`): `skipfooter` and `decimal` of `PandasCSVReader`, `dpi` of `MatplotlibWriter`,
  `batch_size` and `use_pyarrow` of `PolarsScanCSVReader`, `use_pyarrow` and `memory_map` of `PolarsScanParquetReader`, `use_pyarrow` of
  `PolarsScanFeatherReader`, `include_header` and `sample_size` of both `PolarsCSVReader`.
* `None` is dropped even where the library's default differs, e.g. `header=None` of `read_csv`, `compression=None` of `to_parquet`
  (`C87_violated_none`).
* `pd.__version__ >= "2.0"` compares strings (`C87_violated_version`).
* `PolarsParquetWriter` guards every option by `self.compression is not None` (`C87_violated_compression`).
* `get_file_metadata` raises `AttributeError` for a buffer after the data was read or written (`C87_violated_buffers`); the saver of
  `huggingface_extensions.py` means to avoid this, but `isinstance(x, typing.BinaryIO)` is false for every buffer.
* `dataclasses.asdict` copies deeply: open files raise, dataclass instances become dicts (`C87_violated_copies`).
* `na_values` of `PandasExcelReader` has no annotation and is no field (`C87_violated_na_values`); neither are `ignore_verifications`,
  `use_auth_token` and `task` of `HuggingFaceDSLoader`.

Run recorders
* `MLFlowTracker` calls `inputs.items()`; `Driver.execute` passes `None` if no inputs are given. The run is active by then and stays so
  (`C88_violated_no_inputs`). `ExperimentTracker` calls `inputs.get` (`C88_violated_experiment_no_inputs`).
* The hook after a failing node gets `result=None`: `float(None)` and `"path" in None` raise and mask the exception
  (`C88_violated_masked`, `C88_violated_saver_fails`), or `None` is logged (`C88_violated_failed_value`).
* `required_dependencies.pop()` picks any dependency of a saver and removes it from the graph (`C88_violated_two_sources`,
  `C88_violated_twice`).
* `run_id` of `MLFlowTracker` is stored and never read (`C88_violated_run_id`).
* `isinstance(node_return_type, str)` and `isinstance(node_return_type, dict)` test the type and are never true: results of these types
  are pickled instead of logged as text or JSON.
* One `MLFlowTracker` keeps one run (`C88_violated_overlap`); one `ExperimentTracker` is one record (`C88_violated_second`).
* `ExperimentTracker` with a saver without path: `path` is unbound, the working directory is not restored (`C88_violated_no_path`).
* `JsonCache.delete` opens the database for reading and cannot delete.
* `create_input_dataset` looks for a dot in the name of the node, not in the path (`C88_violated_format`); `extract_schema_facet` zips
  `None` if the data is no frame (`C88_violated_no_frame`). A query has no table name, so its data set is named `None`.

Caching with tasks
* With `GroupNodesByLevel`, a node that depends on a node of another level raises `TypeError`: the version of the dependency is looked
  up under the current task, is `None`, and cannot be joined into the key (`C89_violated_by_level`).
* Collected items are versioned as a sorted list although their order is fixed (C20): a node that collects the same items in another order
  gets the earlier result (`C89_violated_order`).
* `_set_memory_metadata` tests for the dict of a node and then creates it: of two threads that record the first versions of a node of a
  block, one can lose its version, and the next node of its branch raises `TypeError` (`C89_violated_threads`).

The log of the cache
* `view_run` draws a node that is given as input and as override only as an input (`C90_violated_override`).
* `logs()` at level "info" has no entry for a run in which nothing got a value, although `run_ids` has it (`C90_violated_missing_run`).
* EXECUTE_NODE is logged after the function returned: a node that raised was executed, but only level "debug" shows it (as FAILED_EXECUTION).
* `get_cache_key` is documented to return a sentinel for a missing key; it returns `None` and logs a hit in both cases. `last_run_id`
  before any run is an `IndexError`. These are not modelled.

Reading results from the cache
* `get_data_version` has no version for a parallelizable node, although its result is stored (`C91_violated_expand`); with the cache
  key as a further argument it has one.
* docs/concepts/caching.rst:545-549 reads `dr.cache.data_versions["amount_per_country"]`; the dict is keyed by run identifiers.
* docs/concepts/caching.rst:552-560 finds the version of a node "in any run" with the event SET_RESULT; it is only logged in the run
  that stored the result first (adapter.py:1442-1459), so for later runs the loop finds nothing.

Deprecation
* `warn_starting` and `fail_starting` are compared with `>`: in exactly these versions there is no warning, and no failure
  (`C92_violated_starting`). With 2.0.0 installed everything announced to fail in 2.0.0 still works.
* `dynamic_transform` and `pipe` pass fixed values as `current_version` (1.19.0 and 1.77.0): the first never warns, the second never
  fails (`C92_violated_dynamic_transform`, `C92_violated_pipe`).
* A class with two notices calls itself without end (`C92_violated_twice`); the code says so in a comment.
* `pipe(..., collapse=True)` is passed on as `collapse=False` (macros.py:1089-1095), so it is accepted and ignored, while `pipe_input`
  raises `NotImplementedError`. Not modelled.

Loading of extensions
* `enable_autoload` raises `KeyError` where the variable is not set (`C93_violated_enable`).
* `config_enable_autoload` copies the value of the file to the environment before it removes it from the file; the running process stays
  switched off, also if `enable_autoload` was called before (`C93_violated_running`). `config_disable_autoload` does not switch off in the
  running process.
* `initialize` only skips extensions with import errors; anything else raised while importing an extension makes `import hamilton.driver`
  fail (`C93_violated_broken`).
* `get_column_type_from_df_type` raises `KeyError` for spark, so that `@extract_columns` on a Spark data frame raises `KeyError` instead of
  `InvalidDecoratorException`; `get_registered_column_types` fails as soon as spark is loaded (`C93_violated_spark`).

Temporary modules
* `_copy_func` does not copy `__kwdefaults__`: in a temporary module, keyword-only parameters with defaults are required inputs
  (`C94_violated_keyword_only`). Nor does it copy `__doc__`, so that documentation set by `functools.wraps` is lost (`C94_violated_doc`).
* `module_from_source` (and `create_module`) replace a module of the same name without a word, and leave a module registered whose source
  raised (`C94_violated_source`).
* `is_submodule` is a test for substrings: in a module called `a`, functions imported from `pandas` become nodes
  (`C94_violated_imported`).

Pickling
* `FileResultStore` keeps a relative path and `SQLiteMetadataStore` an absolute one: with the default path, a process in another working
  directory shares the metadata but not the results (`C95_violated_relative`). `create_dir=False` is forgotten.
* The stores in memory have no `__getstate__` that fits their constructor; such a cache cannot be pickled (`C95_violated_memory`).
* `Driver.__setstate__` drops modules that cannot be imported, with an entry in the log only (`C95_violated_dropped`); drivers of temporary
  modules or of `__main__` cannot be pickled, since `find_spec` raises for them (`C95_violated_temporary`).
* A loaded adapter keeps `metadata_store_init` and `result_store_init` as attributes, contrary to the comment in `__setstate__`; harmless.
## 5. Conventions

* `Verif/Model/*`: definitions mirroring the code, each with a citation. `Verif/Spec/*`: specifications that do not use
  helpers of the model. `Verif/Proofs/*`: lemmas. `Verif/Props/*`: property theorems, named `Cxx_…`, each with an `example`
  showing a concrete, non-trivial instance of its hypotheses.
* `_partial`: the theorem proves part of the property; the comment says what is missing. `_violated…`: negation with a
  concrete witness.
* MANIFEST.json: `proved` means that the theorems together give the statement in full for the modelled code; `partial` that at
  least one theorem is `_partial` or a violation.

## 6. Axioms

Output of `#print axioms` for every theorem listed in MANIFEST.json.

* none: `HookSample.C35_violated_interrupt`, `HookSample.C35_violated_masked`, `C42_no_selection`, `DoesSample.C63_violated_twice`, `DoesSample.C63_violated_dropped`, `DoesSample.C63_violated_not_empty`, `ResultSample.C67_violated_scalars`, `ResultSample.C67_violated_one_row`, `Tracing.Sample.C84_violated_threads`, `StoreCopy.C86_results_refused`, `Deprecation.Sample.C92_violated_starting`, `Pickling.Sample.C95_violated_dropped`, `Pickling.Sample.C95_violated_temporary`
* propext: `C30_memory_exists`, `C36_isolated`, `C36_untouched`, `DecorSample.C37_violated_names`, `DecorSample.C37_violated_warn`, `DecorSample.C39_violated_default`, `DecorSample.C39_violated_leak`, `SubdagSample.C40_violated_config`, `SubdagSample.C40_violated_unused`, `BuilderSample.C43_violated_copy`, `BuilderSample.C43_violated_rebuild`, `BuilderSample.C43_violated_driver`, `MaterializeSample.C46_violated_clash`, `AsyncSample.C47_violated_input`, `C49_inputs_exact`, `C50_violated`, `MaterializeSample.C53_violated_saved`, `MaterializeSample.C53_violated_ids`, `BuilderSample.C55_violated_caches`, `BuilderSample.C55_violated_local`, `StackSample.C60_violated_order`, `StackSample.C60_violated_exclusive`, `StackSample.C60_violated_validate`, `StackSample.C60_violated_dropped`, `C62_accepts_partial`, `CheckSample.C62_violated_masks`, `CheckSample.C62_violated_parallel`, `DoesSample.C63_violated_chain`, `RunSample.C64_violated_pre_raises`, `RunSample.C64_violated_post_raises`, `RunSample.C64_violated_no_message`, `LegacySample.C65_violated_evict_edit`, `LegacySample.C65_violated_same_source`, `LegacySample.C65_violated_optional`, `LegacySample.C65_violated_two_graphs`, `LegacySample.C65_violated_failed_once`, `FileSample.C66_violated_inputs`, `FileSample.C66_violated_part`, `FileSample.C66_violated_uncached`, `FileSample.C66_violated_leftover`, `FileSample.C66_violated_broken`, `C67_numpy_partial`, `ResultSample.C67_violated_overwrite`, `C70_loader`, `C70_saver`, `C70_nodes`, `DataSample.C70_violated_postponed`, `ExtractSample.C71_violated_documented`, `ExtractSample.C71_violated_polars`, `ExtractSample.C71_violated_name`, `ExtractSample.C72_violated_reassign`, `ExtractSample.C72_violated_does`, `ExtractSample.C72_violated_misspelled`, `RemoteSample.C75_violated_reserved`, `Telemetry.TelemetrySample.C76_violated_folder`, `DryRun.DryRunSample.C81_violated_empty`, `DryRun.DryRunSample.C81_violated_networkx`, `DryRun.DryRunSample.C81_violated_nothing`, `Kedro.Sample.C82_violated_again`, `ParamFamily.C83_group`, `ParamFamily.Sample.C83_violated_values`, `ParamFamily.Sample.C83_violated_input`, `ParamFamily.Sample.C83_violated_annotation`, `ParamFamily.Sample.C83_violated_braces`, `ParamFamily.Sample.C83_violated_empty`, `Recorders.C88_slack`, `Deprecation.C92_one_effect`, `Deprecation.C92_one_call`, `Deprecation.Sample.C92_violated_twice`, `Autoload.Sample.C93_violated_enable`, `Autoload.Sample.C93_violated_running`, `Autoload.Sample.C93_violated_broken`, `Autoload.Sample.C93_violated_spark`, `Pickling.Sample.C95_violated_relative`, `Pickling.Sample.C95_violated_memory`
* propext, Classical.choice, Quot.sound: `C01_execute_sound`, `C02_at_most_once`, `C03_only_needed`, `C04_execute_complete`, `C04_request_order_independent`, `C04_subset_succeeds`, `C05_override_eq_constant`, `C06_validated_never_missing`, `C07_rejection_justified_partial`, `C07_violated`, `C08_arguments`, `C09_downstream`, `C09_upstream`, `C10_path_between`, `C10_nodes_between`, `C11_plan_exact_partial`, `C11_violated`, `C12_sorted`, `C12_acyclic_complete`, `C13_wiring`, `C13_nodes`, `C14_resolution`, `TaskLimits.C16_violated_values`, `C16_dependencies_done`, `C16_values_legitimate_partial`, `C16_results_passed_partial`, `TaskLimits.C17_violated`, `C17_submitted_at_most_once_partial`, `C17_submitted_exactly_once_partial`, `TaskLimits.C18_violated_block_use`, `C18_never_stuck_partial`, `C18_terminates_partial`, `C18_violated_empty`, `C19_violated`, `C19_same_values_partial`, `C19_same_success_partial`, `TaskLimits.C20_violated`, `TaskLimits.C20_violated_two`, `C20_collect_in_order_partial`, `C21_overrides_win_partial`, `C21_violated`, `TaskLimits.C23_violated`, `C23_failing_task_raises_partial`, `C23_same_work_partial`, `TaskLimits.C24_violated`, `C24_isolated_partial`, `C24_results_kept_partial`, `C25_transparent_partial`, `CacheSample.C25_violated_input`, `CacheSample.C25_violated_default`, `CacheSample.C25_violated_loader`, `C26_crash_partial`, `C27_same_type_partial`, `C27_violated`, `C27_violated_depth`, `C28_set`, `C28_dict_partial`, `C28_dict_typed_keys`, `C28_equal_values`, `C28_sequence`, `C28_violated`, `C29_decode_partial`, `C29_injective_partial`, `C29_order`, `C29_violated`, `C30_sqlite_exists`, `C30_sqlite_get_partial`, `C30_agree_partial`, `C30_run_ids`, `C30_violated`, `C30_violated_runs`, `C31_always_executed_partial`, `CacheSample.C31_violated`, `C32_always_executed`, `C32_disable_no_store`, `C33_performed_partial`, `CacheSample.C33_violated`, `C34_precedence_partial`, `C34_follow`, `C34_conflict`, `C34_total`, `BehSample.C34_violated_loader_default`, `BehSample.C34_violated_everything`, `C36_values`, `C36_no_caught_error`, `C36_total`, `GracefulSample.C36_violated_sentinel_value`, `C37_partial`, `C38_selection`, `C38_names_partial`, `C38_first_build`, `ConfigSample.C38_violated_rebuild`, `ConfigSample.C38_violated_stacked`, `ConfigSample.C38_violated_private_name`, `C39_partial`, `C40_faithful_partial`, `C40_final_partial`, `C40_isolated`, `DecorSample.C41_violated_name`, `C42_prune`, `C44_matches`, `C44_list`, `C45_partial`, `ConfigSample.C45_violated_foreign`, `C46_values_partial`, `C46_materializers`, `C46_driver`, `C47_deterministic`, `C47_terminates`, `C47_same_values_partial`, `C47_same_as_sync_partial`, `AsyncSample.C47_violated_order`, `C48_partition`, `C48_unknown`, `C48_single`, `C49_refl`, `C49_any`, `C49_sound_partial`, `C49_union_member`, `C49_classes`, `C49_exact`, `C49_markers`, `C49_edges`, `C49_values_partial`, `C49_inputs_accepted_partial`, `TypesSample.C49_violated_generic`, `TypesSample.C49_violated_tuple`, `TypesSample.C49_violated_mapping`, `C50_blocks`, `C50_default_plan`, `C50_blocks_plain`, `C50_by_level`, `CacheSample.C51_violated`, `C52_rerun_partial`, `C53_loader_partial`, `C53_saver_partial`, `C54_needed_cycle_fails`, `C54_recursion_needs_cycle`, `C54_other_requests`, `C55_one_cache_partial`, `C56_sequential_partial`, `C56_reading_unique_partial`, `C56_schedule_partial`, `C56_complete_partial`, `TaskSample.C56_violated_override`, `TaskSample.C56_violated_inner`, `C57_input_partial`, `C57_output_partial`, `C57_violated_async`, `PipeSample.C57_violated_literal`, `PipeSample.C57_violated_same_source`, `PipeSample.C57_violated_default`, `PipeSample.C57_violated_on_input`, `PipeSample.C57_violated_namespace`, `PipeSample.C57_violated_names`, `PipeSample.C57_violated_stacked`, `C58_others_unchanged`, `C58_value_partial`, `MutateSample.C58_violated_on_output`, `MutateSample.C58_violated_stacked`, `C59_dataflow`, `VersionSample.C59_violated_step`, `VersionSample.C59_violated_input`, `VersionSample.C59_violated_added`, `VersionSample.C59_violated_indented`, `VersionSample.C59_violated_none`, `VersionSample.C59_violated_edges`, `C60_interleaving`, `C60_one_by_one`, `C60_config`, `C60_resolve_partial`, `C61_loader`, `C61_saver_partial`, `C61_register`, `C61_loader_sound_partial`, `C61_saver_sound_partial`, `C61_cache_partial`, `C62_exact_partial`, `C62_transparent_partial`, `CheckSample.C62_violated_tuple`, `CheckSample.C62_violated_raises`, `CheckSample.C62_violated_annotated`, `C63_callable`, `C63_arguments_partial`, `C64_execution_path_partial`, `C64_violated_execution_path`, `C64_validators_partial`, `C64_construct_partial`, `C64_materialize_partial`, `C65_shelve_partial`, `C65_disk_partial`, `C65_shelve_repeat_partial`, `C65_disk_repeat_partial`, `C65_shelve_later_partial`, `C65_disk_later_partial`, `C65_evict_partial`, `C65_evict_rest`, `C66_rule_partial`, `C66_same_partial`, `C66_again_partial`, `C66_edit_partial`, `C67_no_dots`, `C67_strict`, `C68_value_partial`, `C68_no_frame`, `C68_missing_column`, `C68_pruned`, `C68_selection`, `C68_accepted`, `ColumnSample.C68_violated_select`, `ColumnSample.C68_violated_rebuild`, `C69_accepted`, `C69_verdict`, `C69_no_raise`, `C69_fail`, `C69_warn_partial`, `ValidatorSample.C69_violated_docs`, `ValidatorSample.C69_violated_warn`, `C70_tags`, `C70_cache_partial`, `DataSample.C70_violated_subdag`, `C72_frame_partial`, `C72_column_partial`, `C73_tags_partial`, `C73_accepted_partial`, `C73_ray_partial`, `MetaSample.C73_violated_order`, `MetaSample.C73_violated_outputs`, `MetaSample.C73_violated_ray`, `C74_empty`, `C74_entries_partial`, `C74_warn_partial`, `C74_outcomes`, `C74_silent`, `C74_rerun_partial`, `C74_violated_unchanged_node`, `SchemaSample.C74_violated_warn`, `SchemaSample.C74_violated_nullable`, `SchemaSample.C74_violated_field_metadata`, `SchemaSample.C74_violated_subdag`, `C75_submitted_once`, `C75_all_submitted`, `C75_cluster`, `C75_progress`, `C75_same_result_partial`, `C75_same_failure`, `Telemetry.C76_switch`, `Telemetry.C76_opt_out`, `Telemetry.C76_opt_out_env`, `Telemetry.C76_limit_partial`, `Telemetry.C76_transparent_partial`, `Telemetry.C76_anonymous_partial`, `Telemetry.TelemetrySample.C76_violated_dataflow`, `Telemetry.TelemetrySample.C76_violated_contrib`, `Telemetry.TelemetrySample.C76_violated_limit`, `Telemetry.TelemetrySample.C76_violated_config_lost`, `C77_annotations`, `C77_structure`, `C77_program_partial`, `C77_complete_partial`, `FromFnSample.C77_violated_positional`, `FromFnSample.C77_violated_kwargs`, `FromFnSample.C77_violated_alias`, `Visualize.C78_all_partial`, `Visualize.C78_execution_partial`, `Visualize.C78_execution_no_inputs_partial`, `Visualize.C78_downstream_partial`, `Visualize.C78_upstream_partial`, `Visualize.C78_path_partial`, `Visualize.C78_legend_partial`, `Visualize.C78_label_partial`, `Visualize.C78_violated_label`, `Visualize.C78_violated_legend_name`, `Visualize.C78_violated_requested_input`, `Visualize.C78_violated_override_arrow`, `Visualize.C78_violated_legend_config`, `Spark.C79_rows_partial`, `Spark.C79_complete_partial`, `Spark.SparkSample.C79_violated_after_failure`, `Spark.SparkSample.C79_violated_scalar_column`, `Spark.SparkSample.C79_violated_two_tables`, `Spark.SparkSample.C79_violated_driver_side`, `Spark.SparkSample.C79_violated_replaced`, `Spark.C80_value_partial`, `Spark.C80_complete_partial`, `Spark.C80_no_table`, `Spark.SparkColumnsSample.C80_violated_shadowed`, `Spark.SparkColumnsSample.C80_violated_column_dropped`, `Spark.SparkColumnsSample.C80_violated_no_columns`, `Spark.SparkColumnsSample.C80_violated_missing_column`, `DryRun.C81_validate_partial`, `DryRun.C81_validate_materialization_partial`, `DryRun.C81_has_cycles_partial`, `DryRun.C81_export_partial`, `DryRun.DryRunSample.C81_violated_function`, `Kedro.C82_values_partial`, `Kedro.C82_execute_partial`, `Kedro.C82_complete_partial`, `Kedro.Sample.C82_violated_reused`, `Kedro.Sample.C82_violated_single`, `Kedro.Sample.C82_violated_keys`, `Kedro.Sample.C82_violated_length`, `Kedro.Sample.C82_violated_parameter`, `Kedro.Sample.C82_violated_twice`, `Kedro.Sample.C82_violated_default`, `Kedro.Sample.C82_violated_annotation`, `ParamFamily.C83_inject`, `ParamFamily.C83_accept_partial`, `ParamFamily.C83_nodes_partial`, `ParamFamily.C83_value_partial`, `Tracing.C84_distributed_partial`, `Tracing.C84_datadog_partial`, `Tracing.C84_contexts_partial`, `Tracing.C84_progress_partial`, `Tracing.C84_display`, `Tracing.Sample.C84_violated_overrides`, `Tracing.Sample.C84_violated_nothing`, `Tracing.Sample.C84_violated_narrow`, `Results.C85_file_partial`, `Results.C85_agree_partial`, `Results.C85_hits_partial`, `Results.C85_format`, `Results.C85_expired_partial`, `Results.Sample.C85_violated_removed`, `Results.Sample.C85_violated_dots`, `Results.Sample.C85_violated_expired`, `Results.Sample.C85_violated_memory`, `StoreCopy.C86_load`, `StoreCopy.C86_load_all_partial`, `StoreCopy.C86_persist_partial`, `StoreCopy.C86_persist_new_partial`, `StoreCopy.C86_round_trip_partial`, `StoreCopy.C86_results_persist_partial`, `StoreCopy.Sample.C86_violated_deleted`, `StoreCopy.Sample.C86_violated_ignored`, `StoreCopy.Sample.C86_violated_other`, `StoreCopy.Sample.C86_violated_twice`, `StoreCopy.Sample.C86_violated_missing`, `Options.C87_exact`, `Options.C87_nothing_else`, `Options.C87_excel`, `Options.C87_reaches_partial`, `Options.C87_function`, `Options.C87_location`, `Options.C87_unknown`, `Options.C87_completes_partial`, `Options.C87_violated_buffers`, `Options.C87_pickle`, `Options.C87_extra_parquet`, `Options.C87_extra_dataset`, `Options.C87_extra_load`, `Options.C87_violated_dropped`, `Options.Sample.C87_violated_none`, `Options.Sample.C87_violated_version`, `Options.Sample.C87_violated_compression`, `Options.Sample.C87_violated_copies`, `Options.Sample.C87_violated_na_values`, `Recorders.C88_mlflow_partial`, `Recorders.C88_experiment_partial`, `Recorders.C88_lineage_partial`, `Recorders.C88_lineage_separate`, `Recorders.Sample.C88_violated_no_inputs`, `Recorders.Sample.C88_violated_masked`, `Recorders.Sample.C88_violated_failed_value`, `Recorders.Sample.C88_violated_two_sources`, `Recorders.Sample.C88_violated_twice`, `Recorders.Sample.C88_violated_run_id`, `Recorders.Sample.C88_violated_overlap`, `Recorders.Sample.C88_violated_second`, `Recorders.Sample.C88_violated_saver_fails`, `Recorders.Sample.C88_violated_no_path`, `Recorders.Sample.C88_violated_experiment_no_inputs`, `Recorders.Sample.C88_violated_no_frame`, `Recorders.Sample.C88_violated_format`, `TaskCache.C89_transparent_partial`, `TaskCache.C89_again`, `TaskCache.Sample.C89_violated_by_level`, `TaskCache.Sample.C89_violated_order`, `TaskCache.Sample.C89_violated_threads`, `TaskCache.Log.C90_log_partial`, `TaskCache.Log.C90_view_partial`, `TaskCache.Log.C90_view_tasks`, `TaskCache.Log.Sample.C90_violated_override`, `TaskCache.Log.Sample.C90_violated_missing_run`, `TaskCache.Read.C91_read_partial`, `TaskCache.Read.C91_version_partial`, `TaskCache.Read.Sample.C91_violated_expand`, `Deprecation.C92_function_partial`, `Deprecation.C92_declaration`, `Deprecation.C92_upgrade`, `Deprecation.C92_class_partial`, `Deprecation.C92_announced_partial`, `Deprecation.C92_violated_dynamic_transform`, `Deprecation.C92_violated_pipe`, `Autoload.C93_column_type_partial`, `TempModule.C94_accepted`, `TempModule.C94_functions_partial`, `TempModule.C94_untouched`, `TempModule.C94_independent`, `TempModule.C94_source_partial`, `TempModule.Sample.C94_violated_keyword_only`, `TempModule.Sample.C94_violated_doc`, `TempModule.Sample.C94_violated_source`, `TempModule.Sample.C94_violated_imported`, `Pickling.C95_cache_partial`
* propext, Quot.sound: `C10_path_unknown`, `C12_levels`, `C14_duplicate_rejected`, `C15_config_input_clash`, `C22_pool_bound`, `C22_grants`, `C30_memory_get`, `C35_node_partial`, `C35_run_partial`, `C35_adapter_set`, `C40_parameterized`, `C41_dict`, `C41_field_partial`, `C43_independent`, `C43_copy_partial`, `C43_rebuild_partial`, `C43_driver_partial`, `C43_settings`, `C44_other`, `C49_accepts`, `TypesSample.C49_violated_union`, `TypesSample.C49_violated_order`, `C50_individually`, `C50_all_as_one`, `MaterializeSample.C53_violated_source`, `MaterializeSample.C53_violated_literal`, `C54_any_limit`, `C55_accepted`, `C55_executors_partial`, `C59_code`, `C59_diff_partial`, `C59_edited_partial`, `AdapterSample.C61_violated_any_saver`, `AdapterSample.C61_violated_arguments`, `AdapterSample.C61_violated_cache`, `AdapterSample.C61_violated_cache_loader`, `AdapterSample.C61_violated_annotated`, `C62_rejects_partial`, `C62_stops_partial`, `C62_run_partial`, `C63_accepts_partial`, `C64_execute_partial`, `C64_returns_partial`, `C64_raises_partial`, `C64_raw_execute_partial`, `C64_async_partial`, `C64_task_partial`, `RunSample.C64_violated_interrupt`, `RunSample.C64_violated_task_interrupt`, `RunSample.C64_violated_equal`, `RunSample.C64_violated_async_build`, `RunSample.C64_violated_materialize_unbound`, `RunSample.C64_violated_materialize_validators`, `C65_disk_history`, `LegacySample.C65_violated_evict`, `C67_table_partial`, `C67_plain`, `C68_arguments`, `C70_accepted_partial`, `C71_frame_partial`, `C71_column_partial`, `C71_nodes`, `C72_nodes`, `Telemetry.C76_config_kept`, `Visualize.C78_violated_legend_inputs`, `DryRun.C81_requests_partial`, `DryRun.C81_impossible`, `Kedro.C82_converts`, `ParamFamily.C83_construct`, `ParamFamily.C83_values_partial`, `ParamFamily.C83_input_partial`, `ParamFamily.C83_sources`, `ParamFamily.Sample.C83_violated_order`, `Tracing.C84_nested`, `Tracing.Sample.C84_violated_links`, `Results.C85_memory`, `StoreCopy.C86_results_load_partial`, `TaskCache.C89_threads_partial`, `TaskCache.Log.C90_apart`, `Autoload.C93_other_options`, `Autoload.C93_config_off`, `Autoload.C93_off`, `Autoload.C93_config_on`, `Autoload.C93_dataframe_types`, `Pickling.C95_driver_partial`, `Pickling.C95_requests`, `Pickling.C95_refused`

## 7. Testing the theorems with wrong programs

`seeded/LOG.jsonl` records 1337 edits of model definitions, each a realistic bug. For each the affected property theorems were rechecked: the log lists those whose proof no longer goes through, and what was tightened when the edit went unnoticed.
