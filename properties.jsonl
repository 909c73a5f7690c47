{"id": "C01", "title": "Executed values are the functional composition of the DAG", "statement": "If Driver.execute(final_vars, inputs, overrides) returns, then for every requested name the returned value is the value obtained by composing the node functions along the DAG: an overridden node has its override value, an input/config node has the supplied value, any other node has the result of its function applied to the values of exactly those of its parameters that have a value. Intermediate results being dropped during the run never changes a returned value.", "quantifier": "every acyclic graph, every set of node functions, every inputs/config/overrides, every list of requested names", "why_tests_cant": "The number of graph shapes, request orders and prunings is unbounded; a test fixes one graph and one order.", "anchors": ["hamilton/execution/graph_functions.py:execute_subdag", "hamilton/driver.py:DefaultGraphExecutor.execute", "hamilton/driver.py:Driver.execute"]}
{"id": "C02", "title": "A node function runs at most once per execute call", "statement": "During one execution of a list of requested nodes, no node function is invoked more than once, even though results of intermediate nodes are deleted from memory before the run ends.", "quantifier": "every acyclic graph built by the library, every requested list (with repetitions), inputs and overrides; also executions that end in an error", "why_tests_cant": "Deleting memoised results can only cause re-execution on particular shapes/orders; tests sample shapes.", "anchors": ["hamilton/execution/graph_functions.py:execute_subdag"]}
{"id": "C03", "title": "Only needed functions run", "statement": "Every node function invoked by an execution belongs to a node from which a requested node can be reached along dependency edges that do not pass into an overridden node; overridden nodes and input nodes are never invoked.", "quantifier": "every graph, requested list, inputs and overrides", "why_tests_cant": "Universal over graphs and override sets.", "anchors": ["hamilton/execution/graph_functions.py:execute_subdag"]}
{"id": "C04", "title": "Execution is complete: if every needed input is there and no function raises, the run returns all requested values", "statement": "On an acyclic graph, if every requested node has a value according to functional composition, execution terminates without error and returns exactly that value for every requested name; in particular results do not depend on the order in which names are requested nor on which other names are requested.", "quantifier": "every acyclic graph, every requested list and every permutation/extension of it", "why_tests_cant": "Termination and order independence quantify over all graphs and orders.", "anchors": ["hamilton/execution/graph_functions.py:execute_subdag", "hamilton/driver.py:Driver.execute"]}
{"id": "C05", "title": "Overriding a node is the same as replacing its function by a constant", "statement": "Executing with overrides={n: v} returns, for every requested name, the value obtained when node n is replaced by a parameterless function returning v.", "quantifier": "every acyclic graph, node, value and requested list", "why_tests_cant": "Needs all graphs and all override sets.", "anchors": ["hamilton/execution/graph_functions.py:execute_subdag"]}
{"id": "C06", "title": "If input validation passes, no missing-input failure occurs during execution", "statement": "If the driver's pre-execution validation accepts inputs (dict given) for a requested list, the execution that follows never fails with 'was expected to be passed in but was not'.", "quantifier": "every graph, config, inputs dict, overrides, requested list", "why_tests_cant": "Relates two separate traversals of an arbitrary graph.", "anchors": ["hamilton/driver.py:Driver.validate_inputs", "hamilton/driver.py:Driver.validate_execution", "hamilton/graph.py:FunctionGraph.get_upstream_nodes", "hamilton/execution/graph_functions.py:execute_subdag"]}
{"id": "C07", "title": "Validation never rejects an execution that would succeed", "statement": "Pre-execution validation reports a missing required input only when execution of the requested list would actually fail for lack of it.", "quantifier": "every graph, config, inputs, overrides, requested list", "why_tests_cant": "Relates two traversals over arbitrary graphs and override sets.", "anchors": ["hamilton/driver.py:Driver.validate_inputs", "hamilton/execution/graph_functions.py:node_is_required_by_anything"]}
{"id": "C08", "title": "Optional inputs that are not supplied are omitted, supplied ones are passed", "statement": "A function parameter with a default that refers to an input which is neither supplied nor configured is not passed to the function (so its default applies); if it is supplied, or is produced by a node, it is passed. A required parameter is always passed.", "quantifier": "every graph, node, inputs", "why_tests_cant": "Universal over graphs and inputs.", "anchors": ["hamilton/execution/graph_functions.py:execute_subdag", "hamilton/node.py:DependencyType"]}
{"id": "C09", "title": "Lineage queries are exact reachability", "statement": "what_is_downstream_of(names) returns exactly the nodes reachable from names along consumer edges, what_is_upstream_of(names) exactly the nodes reachable along dependency edges (names included); unknown names raise an error listing all of them.", "quantifier": "every graph (also cyclic ones) and every list of names", "why_tests_cant": "Universal over graphs.", "anchors": ["hamilton/driver.py:Driver.what_is_downstream_of", "hamilton/driver.py:Driver.what_is_upstream_of", "hamilton/graph.py:FunctionGraph.directional_dfs_traverse"]}
{"id": "C10", "title": "Path queries return exactly the nodes on some path", "statement": "what_is_the_path_between(a, b) returns exactly the nodes lying on some dependency path from a to b (both included), and nothing if there is none; the block-search used for parallel execution (nodes between a collect node and its expand node) returns exactly the nodes strictly between.", "quantifier": "every graph, every pair of nodes", "why_tests_cant": "Universal over graphs.", "anchors": ["hamilton/driver.py:Driver._get_nodes_between", "hamilton/graph.py:FunctionGraph.nodes_between", "hamilton/execution/graph_functions.py:nodes_between"]}
{"id": "C11", "title": "The set of nodes planned for execution is exactly what the execution touches", "statement": "The node set computed before execution (used for validation, visualisation and task planning) equals the set of nodes reachable from the requested names through non-overridden nodes, skipping optional parameters whose input is not supplied; every node evaluated by the execution is in it.", "quantifier": "every graph, inputs, overrides, requested list", "why_tests_cant": "Relates planner and executor over arbitrary graphs.", "anchors": ["hamilton/graph.py:FunctionGraph.get_upstream_nodes", "hamilton/execution/graph_functions.py:execute_subdag"]}
{"id": "C12", "title": "Topological sorting is correct", "statement": "For an acyclic set of nodes the topological sort returns every node exactly once with dependencies before dependents; for any set of nodes every returned node appears once and after all its in-set dependencies, and nodes are missing iff they depend on a cycle.", "quantifier": "every list of nodes with distinct names, cyclic or not", "why_tests_cant": "Universal over graphs.", "anchors": ["hamilton/execution/graph_functions.py:topologically_sort_nodes", "hamilton/execution/graph_functions.py:get_node_levels"]}
{"id": "C13", "title": "Graph construction wires dependencies both ways and completely", "statement": "In every graph built from functions, node d is listed as a dependency of n iff n's function has a parameter named d, iff n is listed among the consumers of d; every parameter name is a node of the graph (an input node if no function defines it).", "quantifier": "every collection of functions and config", "why_tests_cant": "Universal over modules.", "anchors": ["hamilton/graph.py:add_dependency", "hamilton/graph.py:update_dependencies", "hamilton/graph.py:create_function_graph"]}
{"id": "C14", "title": "Name resolution between modules and config", "statement": "Building a graph fails iff two collected nodes not shadowed by config have the same name and module overrides are not allowed; with overrides allowed the node of the last module wins; a config key always replaces a function of the same name and becomes an input node whose value is the config value.", "quantifier": "every list of modules/functions and every config", "why_tests_cant": "Universal over module lists.", "anchors": ["hamilton/graph.py:create_function_graph"]}
{"id": "C15", "title": "Config and runtime inputs never silently shadow each other", "statement": "Executing with an input whose name is a config key always raises; otherwise every name resolves to the config value if configured and to the runtime input otherwise.", "quantifier": "every config and inputs", "why_tests_cant": "Universal over dictionaries.", "anchors": ["hamilton/execution/graph_functions.py:combine_config_and_inputs"]}
{"id": "C16", "title": "A task starts only after everything it depends on has finished successfully", "statement": "In task-based (parallel) execution, for any interleaving of task completions and failures, a task is submitted to an executor only when all tasks it depends on are successful, and the values it is given are those tasks' results.", "quantifier": "every task plan, every executor capacity, every order of completions/failures, every polling schedule", "why_tests_cant": "Concurrency schedules are unbounded.", "anchors": ["hamilton/execution/state.py:ExecutionState.update_task_state", "hamilton/execution/state.py:ExecutionState.release_next_task", "hamilton/execution/executors.py:run_graph_to_completion"]}
{"id": "C17", "title": "A task is submitted exactly once", "statement": "In task-based execution no task is submitted to an executor twice, even when executors are saturated and tasks are put back in the queue; a successful graph execution submitted every realized task exactly once.", "quantifier": "every task plan, every capacity pattern, every schedule", "why_tests_cant": "Schedules and rejections are unbounded.", "anchors": ["hamilton/execution/state.py:ExecutionState.reject_task", "hamilton/execution/executors.py:run_graph_to_completion"]}
{"id": "C18", "title": "Task-based execution cannot get stuck", "statement": "While the graph execution is neither successful nor failed there is always a task queued or running, so execution can make progress, and it ends after finitely many completions.", "quantifier": "every acyclic task plan, every schedule", "why_tests_cant": "Deadlock freedom over all schedules.", "anchors": ["hamilton/execution/state.py:ExecutionState.get_graph_state", "hamilton/execution/executors.py:run_graph_to_completion"]}
{"id": "C19", "title": "Task-based execution returns the same values as in-memory execution", "statement": "For a graph without Parallelizable nodes, executing with any grouping of nodes into tasks, any executors and any completion order returns the same values as the default execution.", "quantifier": "every acyclic graph, every grouping respecting dependencies, every schedule", "why_tests_cant": "Schedules, groupings and graphs are unbounded.", "anchors": ["hamilton/driver.py:TaskBasedGraphExecutor.execute", "hamilton/execution/grouping.py:create_task_plan", "hamilton/execution/executors.py:base_execute_task"]}
{"id": "C20", "title": "Collect sees one result per expanded element, in the order they were produced", "statement": "A Collect parameter receives the list of the block results for the elements yielded by the Parallelizable node, with the same length and in the same order as they were yielded, whatever the order in which the parallel branches complete.", "quantifier": "every number of elements (including zero), every completion order, every block", "why_tests_cant": "Unbounded number of branches and completion orders.", "anchors": ["hamilton/execution/state.py:ExecutionState.realize_parameterized_group", "hamilton/execution/state.py:ExecutionState.bind_task"]}
{"id": "C21", "title": "Overrides win over inputs, in every execution mode", "statement": "When the same name is given both as input and as override, the override is used by every consumer.", "quantifier": "every graph, executor and schedule", "why_tests_cant": "Depends on set iteration order and schedule.", "anchors": ["hamilton/driver.py:TaskBasedGraphExecutor.execute", "hamilton/execution/grouping.py:create_task_plan", "hamilton/execution/graph_functions.py:execute_subdag"]}
{"id": "C22", "title": "Executor concurrency limits are respected", "statement": "A pool executor never has more than max_tasks unfinished tasks, for every sequence of submissions guarded by can_submit and every completion pattern.", "quantifier": "every sequence of can_submit/submit/completion events, every max_tasks", "why_tests_cant": "Unbounded event sequences.", "anchors": ["hamilton/execution/executors.py:PoolExecutor"]}
{"id": "C23", "title": "A failing task is reported, never swallowed", "statement": "In task-based execution, if any task fails the execute call raises and does not return values.", "quantifier": "every plan and schedule", "why_tests_cant": "Schedules and failure points unbounded.", "anchors": ["hamilton/execution/state.py:ExecutionState.get_graph_state", "hamilton/execution/executors.py:run_graph_to_completion", "hamilton/driver.py:TaskBasedGraphExecutor.execute"]}
{"id": "C24", "title": "Results of different parallel branches do not overwrite each other", "statement": "Two results written to the result cache under different (node, group, spawning task) coordinates are read back independently.", "quantifier": "all node names, group ids and task ids that the library generates", "why_tests_cant": "Universal over strings.", "anchors": ["hamilton/execution/state.py:DictBasedResultCache"]}
{"id": "C25", "title": "Caching is transparent", "statement": "With caching on (default behaviour, deterministic functions, fingerprints that separate different values, code versions that identify functions), every execution returns the same values as without cache, for every earlier history of executions sharing the stores, with any changes of code, inputs, config and overrides in between.", "quantifier": "every history of executions, every graph, every initial consistent store", "why_tests_cant": "Histories are unbounded.", "anchors": ["hamilton/caching/adapter.py:HamiltonCacheAdapter.pre_node_execute", "hamilton/caching/adapter.py:HamiltonCacheAdapter.do_node_execute", "hamilton/caching/adapter.py:HamiltonCacheAdapter.post_node_execute"]}
{"id": "C26", "title": "Cache stores stay safe across crashes", "statement": "If the process is killed at any point between two store operations of a cached execution, later executions still return the same values as without cache (at worst they recompute).", "quantifier": "every crash point in every history", "why_tests_cant": "Crash points are unbounded.", "anchors": ["hamilton/caching/adapter.py:HamiltonCacheAdapter.do_node_execute", "hamilton/caching/adapter.py:HamiltonCacheAdapter.post_node_execute"]}
{"id": "C27", "title": "Data fingerprints separate different values", "statement": "Two different values of the supported types never get the same data version (up to collisions of the underlying digest).", "quantifier": "all values built from primitives, sequences, mappings, sets and unsupported objects", "why_tests_cant": "Universal over values; the failing pairs are easily missed by samples.", "anchors": ["hamilton/caching/fingerprinting.py:hash_value"]}
{"id": "C28", "title": "Fingerprints ignore ordering where ordering has no meaning", "statement": "The data version of a dict does not depend on insertion order, that of a set not on iteration order; the data version of a sequence does depend on order.", "quantifier": "all dicts/sets/sequences and all orderings", "why_tests_cant": "Universal over permutations.", "anchors": ["hamilton/caching/fingerprinting.py:hash_unordered_mapping", "hamilton/caching/fingerprinting.py:hash_set"]}
{"id": "C29", "title": "Cache keys identify node, code version and dependency versions", "statement": "A cache key can be decoded back into node name, code version and dependency data versions; two different triples give different cache keys.", "quantifier": "all node names, code versions, dependency maps produced by the library", "why_tests_cant": "Universal over strings.", "anchors": ["hamilton/caching/cache_key.py:create_cache_key", "hamilton/caching/cache_key.py:decode_key"]}
{"id": "C30", "title": "Metadata stores behave like a map and all implementations agree", "statement": "After any history of operations, get(key) returns the data version of the last set(key, \u00b7) not followed by a delete; exists(key) iff get(key) is not None; the in-memory and the SQLite store give the same answers.", "quantifier": "every sequence of store operations", "why_tests_cant": "Unbounded histories.", "anchors": ["hamilton/caching/stores/memory.py:InMemoryMetadataStore", "hamilton/caching/stores/sqlite.py:SQLiteMetadataStore"]}
{"id": "C31", "title": "Caching behaviour IGNORE stores and versions nothing", "statement": "A node with behaviour 'ignore' is executed every time and neither its metadata nor its result is stored or versioned.", "quantifier": "every node, every history", "why_tests_cant": "Unbounded histories.", "anchors": ["hamilton/caching/adapter.py:CachingBehavior", "hamilton/caching/adapter.py:HamiltonCacheAdapter.do_node_execute", "hamilton/caching/adapter.py:HamiltonCacheAdapter.post_node_execute"]}
{"id": "C32", "title": "RECOMPUTE and DISABLE always execute; DISABLE never touches the stores", "statement": "A node with behaviour recompute or disable is executed in every run that needs it whatever the store contents; disable neither reads nor writes the stores.", "quantifier": "every store content and history", "why_tests_cant": "Unbounded store contents.", "anchors": ["hamilton/caching/adapter.py:HamiltonCacheAdapter.do_node_execute"]}
{"id": "C33", "title": "Caching data savers returns the metadata of the matching save", "statement": "With caching enabled for a data saver node, the metadata returned for given inputs is the metadata of a save performed with those inputs.", "quantifier": "every history of executions", "why_tests_cant": "Needs a history of at least three runs with changing inputs.", "anchors": ["hamilton/caching/adapter.py:HamiltonCacheAdapter.do_node_execute"]}
{"id": "C34", "title": "Caching behaviour precedence", "statement": "The behaviour applied to a node is: recompute for Parallelizable nodes; otherwise the one set on the driver for that node; otherwise the one of its @cache tag; otherwise loader/saver default; otherwise the default. Naming a node in two driver-level sets is an error.", "quantifier": "every node and every builder configuration", "why_tests_cant": "Universal over configurations.", "anchors": ["hamilton/caching/adapter.py:HamiltonCacheAdapter._resolve_node_behavior", "hamilton/caching/adapter.py:HamiltonCacheAdapter.resolve_behaviors"]}
{"id": "C35", "title": "Node lifecycle hooks are balanced", "statement": "For every node execution: pre hooks run before the function; the post hooks run exactly once after it with success/result or error if and only if no pre hook raised; an error of the function always propagates to the caller.", "quantifier": "every list of adapters, every pattern of raising hooks/functions", "why_tests_cant": "Universal over failure patterns.", "anchors": ["hamilton/execution/graph_functions.py:execute_lifecycle_for_node"]}
{"id": "C36", "title": "Graceful error handling isolates failures", "statement": "With GracefulErrorAdapter, a node has the sentinel as result iff it raised the caught error or one of its inputs is the sentinel; nodes not downstream of a failure have the same value as in a normal run.", "quantifier": "every acyclic graph, every failure pattern", "why_tests_cant": "Universal over graphs and failure patterns.", "anchors": ["hamilton/lifecycle/default.py:GracefulErrorAdapter"]}
{"id": "C37", "title": "check_output passes the value through iff no failing FAIL-level check", "statement": "A node decorated with data validators yields the undecorated function's value if every validator of importance FAIL passes and raises otherwise; WARN validators never change the outcome.", "quantifier": "every function, every list of validators and importances", "why_tests_cant": "Universal over validators and values.", "anchors": ["hamilton/function_modifiers/validation.py:BaseDataValidationDecorator.transform_node", "hamilton/data_quality/base.py:act_fail_bulk"]}
{"id": "C38", "title": "config.when family selects exactly the functions whose condition holds", "statement": "A function decorated with several config conditions is in the graph iff all conditions hold for the config (missing keys count as None); its node name is the function name up to the last double underscore, and building again from the same module gives the same names.", "quantifier": "every config, every list of conditions, every function name, every number of builds", "why_tests_cant": "Universal over configs and build histories.", "anchors": ["hamilton/function_modifiers/configuration.py:config", "hamilton/function_modifiers/base.py:sanitize_function_name"]}
{"id": "C39", "title": "parameterize evaluates the function with the specified arguments", "statement": "Each node generated by parameterize computes the decorated function with every parameter replaced as specified: literals by their value, sources by the value of that node, groups by the list/dict of them, unmentioned parameters by the node of the same name; parameters with defaults whose source is not supplied use the default.", "quantifier": "every function, every parameterization (including shared or clashing names)", "why_tests_cant": "Universal over parameterizations.", "anchors": ["hamilton/function_modifiers/expanders.py:parameterize.expand_node"]}
{"id": "C40", "title": "subdag is a faithful, isolated copy", "statement": "Inside a @subdag with a namespace every node computes the value it would compute in a separate driver given the mapped inputs and config, and nodes outside the namespace are not affected.", "quantifier": "every function collection, input mapping and config", "why_tests_cant": "Universal over graphs.", "anchors": ["hamilton/function_modifiers/recursive.py:subdag.add_namespace", "hamilton/function_modifiers/recursive.py:subdag.generate_nodes"]}
{"id": "C41", "title": "extract_fields exposes exactly the fields of the produced dict", "statement": "Each extracted field node yields the value under that key of the function's dict; if the key is missing the fill value if one is given, otherwise an error; the full dict node still yields the function's dict plus filled keys.", "quantifier": "every dict, field list and fill value", "why_tests_cant": "Universal over dicts.", "anchors": ["hamilton/function_modifiers/expanders.py:extract_fields.transform_node"]}
{"id": "C42", "title": "Selecting columns keeps exactly what is needed to compute them", "statement": "Pruning a subdag to selected names keeps exactly the selected nodes and their transitive dependencies inside the subdag, each once, and fails iff a selected name does not exist.", "quantifier": "every node list and selection", "why_tests_cant": "Universal over graphs.", "anchors": ["hamilton/function_modifiers/recursive.py:prune_nodes"]}
{"id": "C43", "title": "Copying a Builder preserves its configuration; building twice gives equivalent drivers", "statement": "Builder.copy() followed by build() gives the same driver as the original's build(); calling build() repeatedly on the same builder gives the same driver configuration.", "quantifier": "every sequence of builder calls", "why_tests_cant": "Universal over call sequences.", "anchors": ["hamilton/driver.py:Builder.copy", "hamilton/driver.py:Builder.build"]}
{"id": "C44", "title": "Tag queries", "statement": "list_available_variables(tag_filter=q) returns exactly the nodes for which every queried tag is present and, if a value or list of values is queried, shares at least one value with it.", "quantifier": "every tag assignment and query", "why_tests_cant": "Universal over tags and queries.", "anchors": ["hamilton/node.py:matches_query", "hamilton/driver.py:Driver.list_available_variables"]}
{"id": "C45", "title": "Only functions of the given module become nodes", "statement": "Collecting functions from a module includes a public function iff it is defined in that module or one of its submodules.", "quantifier": "every module name and member", "why_tests_cant": "Universal over module names.", "anchors": ["hamilton/graph_utils.py:find_functions", "hamilton/graph_utils.py:is_submodule"]}
{"id": "C46", "title": "Adding materializers does not change other values", "statement": "Materializing adds nodes only: requested values computed together with materializers equal those computed without them, and data loaders injected for a node act exactly like overriding that node with the loaded value.", "quantifier": "every graph and list of materializers", "why_tests_cant": "Universal over graphs.", "anchors": ["hamilton/io/materialization.py:modify_graph", "hamilton/graph.py:FunctionGraph.with_nodes"]}
{"id": "C47", "title": "Async execution returns the same values for every interleaving", "statement": "AsyncDriver.execute returns the values of the functional composition whatever the order in which awaitables complete.", "quantifier": "every acyclic graph and every interleaving", "why_tests_cant": "Interleavings unbounded.", "anchors": ["hamilton/async_driver.py:AsyncGraphAdapter.do_node_execute", "hamilton/async_driver.py:await_dict_of_tasks"]}
{"id": "C48", "title": "Decorator targets partition the nodes", "statement": "A decorator with a target transforms exactly the nodes selected by the target and keeps every other node unchanged; an unknown target name is an error; the default target is exactly the sinks.", "quantifier": "every node list and target", "why_tests_cant": "Universal over node lists and targets.", "anchors": ["hamilton/function_modifiers/base.py:NodeTransformer.select_nodes", "hamilton/function_modifiers/base.py:NodeTransformer.compliment", "hamilton/function_modifiers/base.py:NodeTransformer.transform_dag"]}
{"id": "C49", "title": "Type compatibility of edges and inputs", "statement": "The type check used on edges and inputs is reflexive, accepts Any as target, treats Union and Optional members correctly and never rejects a graph for the order in which functions are listed.", "quantifier": "all types built from classes, unions, generics; all function orders", "why_tests_cant": "Universal over types and orders.", "anchors": ["hamilton/htypes.py:types_match", "hamilton/htypes.py:custom_subclass_check", "hamilton/graph.py:add_dependency"]}
{"id": "C50", "title": "Task grouping covers every node exactly once", "statement": "Grouping the nodes to execute into tasks puts every node in exactly one task, blocks contain exactly the nodes between an expand and its collect.", "quantifier": "every acyclic graph with expand/collect nodes", "why_tests_cant": "Universal over graphs.", "anchors": ["hamilton/execution/grouping.py:GroupByRepeatableBlocks.group_nodes", "hamilton/execution/grouping.py:GroupNodesByLevel"]}
{"id": "C51", "title": "A kill while a result is being written does not break later cached executions", "statement": "If the process is killed while a result file is being written, later cached executions of the same thing still succeed with the values of the execution without cache.", "quantifier": "every history, every crash point inside a write", "why_tests_cant": "Crash points are unbounded and not reachable deterministically from a test.", "anchors": ["hamilton/caching/stores/file.py:FileResultStore", "hamilton/caching/adapter.py:HamiltonCacheAdapter.do_node_execute"]}
{"id": "C52", "title": "Re-running with unchanged code and inputs executes nothing", "statement": "With default behaviour for every node and hashable values, if a cached execution succeeds, then executing the same thing again right away executes no function and returns the same values.", "quantifier": "every graph, inputs, overrides and every earlier history of executions sharing the stores", "why_tests_cant": "Histories, graphs and values are unbounded.", "anchors": ["hamilton/caching/adapter.py:HamiltonCacheAdapter.pre_node_execute", "hamilton/caching/adapter.py:HamiltonCacheAdapter.do_node_execute", "hamilton/caching/adapter.py:HamiltonCacheAdapter.post_node_execute"]}
{"id": "C53", "title": "Savers and loaders get the arguments and the data they were declared with", "statement": "When a driver runs `materialize` with `to.<fmt>(id, dependencies, combine, **kwargs)` and `from_.<fmt>(target, **kwargs)`, each saver is called once per run with exactly the declared keyword arguments (literals as given, `source(n)` with the value node n has in that run, an optional argument left out if its source is an unsupplied optional input) and with the value of its dependency (or what the `combine` builder makes of the values of all its dependencies, in the declared order); the target of each loader has exactly the value that the loader returns for its declared keyword arguments.", "quantifier": "all graphs, materializers, extractors, inputs and overrides", "why_tests_cant": "The mapping from argument names to sources and back is done by inverting dictionaries whose keys are user-chosen node names; tests cover a handful of namings, not all combinations of argument and node names.", "anchors": ["hamilton/function_modifiers/adapters.py:82-97", "hamilton/function_modifiers/adapters.py:169-266", "hamilton/function_modifiers/adapters.py:506-581", "hamilton/io/materialization.py:117-262"]}
{"id": "C54", "title": "Circular dependencies affect only the calls that need them", "statement": "Functions that depend on each other in a circle do not prevent building a driver. A call of `execute` whose request needs such a circle, with no override that cuts it, never returns a result; the traversal recurses endlessly (`RecursionError`) only in that case. Every other call on the same driver returns exactly the values of the functional composition.", "quantifier": "all function graphs, with or without circular dependencies, requests, inputs and overrides", "why_tests_cant": "Whether the recursion ends depends on the interplay of request, overrides, pruning and the order of traversal over an arbitrary graph; tests try a few small cyclic graphs.", "anchors": ["hamilton/execution/graph_functions.py:149-251", "hamilton/graph.py:145-187", "hamilton/driver.py:786-834"]}
{"id": "C55", "title": "The builder refuses contradictory settings", "statement": "A chain of `driver.Builder()` calls raises `ValueError` exactly when some call contradicts an earlier one: executors, an execution manager or a grouping strategy before dynamic execution is enabled, any of these (or the `with_adapter` adapter) set twice, a local or remote executor after a manager, a manager after an executor, a cache when there is one already. So a built driver has at most one cache, and in task-based execution uses exactly the manager or the executors that were set.", "quantifier": "all sequences of builder calls with arbitrary arguments", "why_tests_cant": "Whether a call is refused depends on all the calls before it, in every order and number; tests try a few pairs.", "anchors": ["hamilton/driver.py:1885-1908", "hamilton/driver.py:1920-1952", "hamilton/driver.py:2033-2130", "hamilton/driver.py:2132-2171"]}
{"id": "C56", "title": "Parallel execution computes what a sequential loop would", "statement": "For a graph with `Parallelizable`/`Collect` functions, a dynamic (task-based) execution that returns gives every requested node the value of this sequential reading: ordinary functions are applied to the values of their parameters; a collector is applied to the list, in order, of the values of the collected node, computed once per element of its `Parallelizable` with that element in its place. Overrides replace nodes also inside of a block. The result does not depend on executors or completion order, and if all needed functions outside of blocks (collectors included) have values in the sequential reading, the call returns.", "quantifier": "all graphs with Parallelizable/Collect blocks, requests, inputs, overrides, element lists of any length, executors and schedules", "why_tests_cant": "The values depend on how branches, keys of the result cache and the order of completion interact for arbitrary graphs and numbers of elements; tests run a few graphs with executors that complete in order.", "anchors": ["hamilton/execution/executors.py:62-151", "hamilton/execution/executors.py:359-404", "hamilton/execution/state.py:193-490", "hamilton/execution/grouping.py:167-258", "hamilton/driver.py:207-252"]}
{"id": "C57", "title": "@pipe_input and @pipe_output mean function composition", "statement": "With `@pipe_input(step(f1, ...), step(f2, ...), ...)` the decorated function receives, for its first parameter (or the one named in `on_input`), the value fn(...f2(f1(x, ...), ...)...) where x is what the parameter would have had; with `@pipe_output` the node of the function has that composition applied to what the function returns, and the plain result is available as `<name>.raw`. Each step function is called with exactly the arguments written in its `step`: a literal is passed as it is, a `source` is replaced by the value of that node, parameters not mentioned use their defaults. Steps whose `when` does not hold are left out, as are steps of a `@pipe_output` whose `on_output` names other nodes. Every remaining step is a node with the value of the partial composition, named by `named`, or `with_<function>` with a number for repeated functions, in the documented namespace. Other parameters and other nodes of the function are unaffected.", "quantifier": "all functions, chains of steps, arguments, namespaces, configurations, graphs containing the nodes, inputs and overrides", "why_tests_cant": "The renaming of arguments composes two dictionaries per step for arbitrary parameter names, sources and literals; tests use a few chains in which no two names coincide.", "anchors": ["hamilton/function_modifiers/macros.py:317-651", "hamilton/function_modifiers/macros.py:868-1075", "hamilton/function_modifiers/macros.py:1218-1408", "hamilton/node.py:347-380", "hamilton/function_modifiers/base.py:234-277"]}
{"id": "C58", "title": "@mutate changes exactly the outputs of its targets", "statement": "After `@mutate(A, apply_to(B, ...), **kwargs) def m(x, ...)`, every final output of a target function (or those named with `on_output`) has the value m(v, ...) where v is the value it had before, with the arguments of `apply_to` if there are any and otherwise those of the decorator; several mutators are applied in the order in which they are defined, after the steps of an existing `@pipe_output`; functions that are not targets are unaffected.", "quantifier": "all modules, sequences of mutators, targets, arguments, configurations, graphs, inputs and overrides", "why_tests_cant": "The decorator edits the decorators of other functions in place; which steps a function ends up with depends on the whole sequence of definitions.", "anchors": ["hamilton/function_modifiers/macros.py:1411-1619", "hamilton/function_modifiers/macros.py:1218-1408"]}
{"id": "C59", "title": "Code versions and hamilton diff report exactly the changed functions", "statement": "The version of a node (used by the cache and by `hamilton version`/`hamilton diff`) changes when the code it runs is changed and does not change when only comments, layout or docstrings are; `hamilton diff` lists a node as added, removed or edited exactly when it is in only one of the two dataflows, or in both with different code; the version of a dataflow changes exactly when some version does, whatever the order of the functions.", "quantifier": "all pairs of codebases, sources (syntax trees), graphs and configurations", "why_tests_cant": "Concerns all pairs of programs: a change that goes unnoticed gives stale cached results, and each test compares two fixed snippets.", "anchors": ["hamilton/graph_types.py:26-240", "hamilton/cli/logic.py:71-194", "hamilton/graph.py:40-188", "hamilton/function_modifiers/base.py:747-771"]}
{"id": "C60", "title": "What a stack of decorators means", "statement": "The nodes a decorated function becomes are those obtained by applying its decorators one after the other, the innermost first, each to what the ones below it produced, after ordering them by kind (resolve, create, inject, expand, transform, tag); the relative order in which decorators of different kinds are written is irrelevant; keys of the configuration that no decorator of the function declares have no influence; and a decorator made from the configuration with `@resolve` acts like the same decorator written in its place.", "quantifier": "all stacks of decorators of all kinds (whatever the single decorators do), functions and configurations", "why_tests_cant": "There are unboundedly many stacks; tests check one decorator or one fixed pair at a time.", "anchors": ["hamilton/function_modifiers/base.py:64-841", "hamilton/function_modifiers/delayed.py:48-151"]}
{"id": "C61", "title": "Which data adapter is used", "statement": "`load_from.<key>` / `from_.<key>` use the loader registered last under `key` among those that produce the type of the parameter, and only if there is none, one that is registered for `Any`; `save_to.<key>` / `to.<key>` likewise use the saver registered last that accepts the type of the node; the arguments given must be those of that adapter, otherwise there is an error when the function is decorated; registering an adapter under another name or for another type changes nothing; and the cache uses the same adapters for a format.", "quantifier": "all sequences of registrations, adapters, type annotations, class hierarchies and argument names", "why_tests_cant": "The choice depends on the whole history of registrations (plugins, user code) and on the subclass relation; tests register a few adapters.", "anchors": ["hamilton/registry.py:209-222", "hamilton/io/data_adapters.py:63-198", "hamilton/function_modifiers/adapters.py:27-134", "hamilton/function_modifiers/adapters.py:269-343", "hamilton/caching/stores/base.py:17-55"]}
{"id": "C62", "title": "Runtime type checking of inputs and outputs", "statement": "With `FunctionInputOutputTypeChecker` among the adapters, a function is only called with arguments that have the types its parameters are annotated with, and a run only succeeds if every function returned a value of its annotated type: values are checked in depth (all items of collections, all keys and values of dictionaries). A run in which all values have their types gives the same result as without the adapter, and an exception raised by a function still reaches the caller.", "quantifier": "all annotations, values, class hierarchies, graphs, inputs, overrides and other adapters", "why_tests_cant": "Annotations and values nest without bound; tests check a table of literal values against a handful of annotations.", "anchors": ["hamilton/htypes.py:377-430", "hamilton/lifecycle/default.py:471-524", "hamilton/lifecycle/api.py:195-270", "hamilton/execution/graph_functions.py:255-331"]}
{"id": "C63", "title": "Replacing the body of a function with @does", "statement": "`@does(g, **mapping)` on an empty function `f` gives a node with the parameters of `f` that calls `g` with every parameter of `f` named in `mapping` under its new name and all others under their own, using the defaults of `f`; if the arguments would not fit the signature of `g`, or `f` is not empty, decorating `f` raises `InvalidDecoratorException`; what was accepted never fails because of its arguments when it is run.", "quantifier": "all signatures, mappings, default values and calls", "why_tests_cant": "The renaming loop depends on the interplay of all old and new names (chains, swaps, duplicates) and on their order.", "anchors": ["hamilton/function_modifiers/macros.py:34-56", "hamilton/function_modifiers/macros.py:101-226"]}
{"id": "C64", "title": "Hooks around runs and construction, and graph validators", "statement": "Every adapter that implements a hook around a run (`execute`, `raw_execute`, `materialize`, the asynchronous `execute`), a task or the construction of a driver is told exactly once before and exactly once after, in the order of the adapters, with nothing in between but the work; what it is told at the end (success, error, results) is what the caller gets. A driver is only constructed, and a materialization only run, after every validator has accepted every node and the graph; otherwise the exception names exactly the rejected nodes with their messages. The `execution_path` told to a `GraphExecutionHook` are exactly the functions that will be run.", "quantifier": "all sets of adapters, hooks, validators, graphs, runs (returning or raising) and result builders", "why_tests_cant": "The guarantees hold for arbitrary sets of adapters with arbitrary side effects and for every way a run, a builder or a hook can fail; tests check one adapter and one failure at a time.", "anchors": ["hamilton/driver.py:343-462", "hamilton/driver.py:584-652", "hamilton/driver.py:710-784", "hamilton/driver.py:1635-1720", "hamilton/async_driver.py:274-375", "hamilton/execution/executors.py:80-151", "hamilton/lifecycle/base.py:763-986", "hamilton/lifecycle/api.py:272-318"]}
{"id": "C65", "title": "The deprecated caching adapters do not change results and skip what was computed", "statement": "A run with `CacheAdapter` or `DiskCacheAdapter` gives the values, or raises the exception, of the same run without the adapter, whatever runs filled the cache before. A function that is cached is not invoked again on arguments for which an earlier successful run had a result. After a run, also one that failed, everything in the cache is right and `evict_all_except` knows about it: it removes everything but the entries of the versions to keep, and keeps those.", "quantifier": "all graphs, nodes to cache, inputs, overrides, sequences of runs, contents of the cache and versions to keep", "why_tests_cant": "What comes out of the cache depends on all earlier runs, on other nodes and on other versions of the code; tests run one pipeline twice.", "anchors": ["hamilton/lifecycle/default.py:326-438", "hamilton/plugins/h_diskcache.py:15-146"]}
{"id": "C66", "title": "`CachingGraphAdapter` loads a file exactly when nothing above was recomputed", "statement": "With `CachingGraphAdapter`, a function tagged `cache` is not called and its file is loaded if and only if the file exists, the function is not forced and no cached function it depends on, directly or through others, was computed in this run; otherwise it is called and its result written. Functions without the tag are always called. As long as code, inputs and overrides stay the same, results are those of runs without the adapter, whatever was forced; the same run again invokes no cached function. After an edit of cached functions, forcing them gives the results of the edited code.", "quantifier": "all graphs, tags, sets of forced nodes, readers and writers, inputs, overrides, requests, files present and sequences of runs, failing ones included", "why_tests_cant": "Whether a file is loaded depends on the whole subgraph above a node and on what earlier runs left behind; tests try one small graph.", "anchors": ["hamilton/experimental/h_cache.py:198-395"]}
{"id": "C67", "title": "Result builders return every output under its name", "statement": "`PandasDataFrameResult` gives a table with exactly one column per output, in the order of the request, and one column `<output>.<column>` per column of an output that is a DataFrame; a single DataFrame is returned as it is; if two columns would have the same name an error is raised and nothing is lost. With ordinary output names (without a dot) no such clash exists. `StrictIndexTypePandasDataFrameResult` raises if and only if not exactly one kind of index occurs among the outputs. `NumpyMatrixResult` gives the matrix whose columns are the outputs, numbers repeated, or an error if two lengths differ.", "quantifier": "all outputs (frames, series, indexes, lists, other values), names, columns, kinds of index and lengths", "why_tests_cant": "Whether a column is lost depends on the combination of names and on their order; tests try single combinations.", "anchors": ["hamilton/base.py:92-276", "hamilton/base.py:309-381"]}
{"id": "C68", "title": "`@with_columns` adds the selected columns", "statement": "A function decorated with `@with_columns` (pandas, polars) is called with its dataframe parameter replaced by that dataframe with the selected columns added or replaced; its other parameters are not affected. A selected column is the column of the dataframe itself if it is one of `columns_to_pass`, and otherwise exactly what a separate driver computes for the function of that name from the columns of the dataframe and the values of the surrounding driver. Only the functions needed for the selection become nodes. A missing dataframe or a missing needed column means no value. Without `select` all passed columns and all functions returning a column are selected. The decorator is accepted if and only if its dataframe parameter exists, the names are different and the selected names exist.", "quantifier": "all functions given to the decorator, selections and orders of selected nodes, surrounding graphs, inputs, overrides, dataframe libraries and dataframes", "why_tests_cant": "The functions are renamed, pruned and rewired into the surrounding graph; equality with a separate driver for every set of functions and every environment cannot be sampled.", "anchors": ["hamilton/function_modifiers/recursive.py:605-851", "hamilton/plugins/h_pandas.py:108-229", "hamilton/plugins/h_polars.py:158-278", "hamilton/function_modifiers/base.py:259-281"]}
{"id": "C69", "title": "The arguments of `@check_output` mean what they say", "statement": "`@check_output(importance=\"fail\", range=..., values_in=..., data_type=..., max_fraction_nans=..., allow_nans=False, max_standard_dev=..., mean_in_range=..., allow_none=False, contains=..., does_not_contain=...)` is accepted if and only if every argument can be used for the declared type of the function. A value the decorated function returns in a run is then a value of the undecorated function for which every argument holds: every entry of a series (or the number) lies in the range, every entry that is not missing is one of the values, the share of missing entries, the mean and the standard deviation are within the limits, the strings occur or do not occur in the result, and so on. Conversely a value for which they hold is passed on, and one for which some argument does not hold makes the run raise. With importance \"warn\" every value is passed on.", "quantifier": "all combinations of arguments, declared types, values (numbers, strings, series of any length, `None`), and graphs containing the decorated function", "why_tests_cant": "The verdict has to agree with the meaning of the argument for every value, including empty series, missing entries and strings; examples cover a few values per argument.", "anchors": ["hamilton/data_quality/default_validators.py:13-542", "hamilton/data_quality/base.py:29-146", "hamilton/function_modifiers/validation.py:26-203"]}
{"id": "C70", "title": "`@dataloader` and `@datasaver`: the data, the metadata and the caching behaviour", "statement": "A function annotated with `tuple[X, dict]` can be decorated by `@dataloader()`, one annotated with `dict` by `@datasaver()`, and no other. In any graph with the decorated function: functions depending on a loader get exactly the first component of what it returns, and the pair is the value of `function.loader`; a saver has the value of the undecorated function. Both nodes of a loader carry the tags of loaders with the name of the function, exactly one of them says that it has metadata; a saver carries the tags of savers; the other tags of the function are kept. Caching: both nodes of a loader have the behaviour asked for the function (in `with_cache`, by `@cache`, or the default for loaders), wherever the function is used.", "quantifier": "all functions, annotations, types, tags, graphs, inputs, overrides and cache arguments", "why_tests_cant": "Tests decorate a few functions at the top level of a module; that the two nodes agree for every graph and every combination of cache arguments needs a proof.", "anchors": ["hamilton/function_modifiers/adapters.py:692-874", "hamilton/caching/adapter.py:945-987", "hamilton/function_modifiers/recursive.py:304-372"]}
{"id": "C71", "title": "`@extract_columns` exposes exactly the columns of the dataframe", "statement": "In any graph with a function decorated by `@extract_columns(...)`: the node of the function has the value of the undecorated function; with `fill_with` it is that dataframe with exactly the missing columns added, each repeating the fill value, whether or not a column is given with documentation and whichever dataframe library is used. The node of a column has exactly the column of that name of the dataframe, and raises if there is none. Without any column the decorator is refused.", "quantifier": "all lists of columns with or without documentation, fill values, dataframes, names of functions, graphs, inputs and overrides", "why_tests_cant": "Tests look at one dataframe with a fixed set of columns and one library; that nothing is added or lost for any dataframe and any list of columns needs a proof.", "anchors": ["hamilton/function_modifiers/expanders.py:567-693", "hamilton/registry.py:168-191", "hamilton/plugins/pandas_extensions.py:47-55", "hamilton/plugins/polars_extensions.py:42-51"]}
{"id": "C72", "title": "`@parameterize_extract_columns` names the columns of each parameterization", "statement": "In any graph with a function decorated by `@parameterize_extract_columns(ParameterizedExtract(outputs, mapping), ...)`: the node `function__i` has as value the dataframe the decorated function returns on the arguments that the i-th mapping asks for, its columns called as the i-th outputs, in order (or, with `reassign_columns=False`, as the function called them), and the node of the j-th output has as value the j-th column. A mapping for something that is not a parameter is refused.", "quantifier": "all lists of extracts, functions, graphs, inputs and overrides", "why_tests_cant": "Sources and literals of several parameterizations are combined with renaming by position; only a proof covers all numbers of extracts and columns.", "anchors": ["hamilton/function_modifiers/expanders.py:853-951", "hamilton/function_modifiers/expanders.py:147-281"]}
{"id": "C73", "title": "Metadata decorators: the tags a node ends up with, what is accepted, and the options that Ray gets", "statement": "A stack of `@tag`, `@tag_outputs`, `@schema.output`, `@ray_remote_options` and `@cache` on a function that becomes any set of nodes changes the tags of the nodes and nothing else. For every node and every key the tag is the one given by the outermost decorator that aims at the node and has the key, and else the tag the node had. The stack is accepted exactly if the keys of `@tag` and `@ray_remote_options` are identifiers joined by dots outside of the reserved namespaces, the values are strings or non-empty lists of distinct strings, the names aimed at are names of nodes of the function, and `@schema.output` aims at dataframes. The Ray adapters read from the tags exactly the options given by `@ray_remote_options`.", "quantifier": "all functions, sets of nodes, tags, targets and stacks of these decorators", "why_tests_cant": "Tests put one or two decorators on one function; which decorator wins for which node depends on the targets, the dependencies between the nodes and the order of the stack.", "anchors": ["hamilton/function_modifiers/metadata.py:12-408", "hamilton/function_modifiers/base.py:418-516", "hamilton/plugins/h_ray.py:36-53"]}
{"id": "C74", "title": "Schema validation: differences of schemas, and what the validator does with them", "statement": "The difference of two schemas of dataframes is empty exactly if they have the same fields in the same order and, where they are checked, the same metadata; otherwise it says for every field whether it was added, removed, left or changed, and which attributes changed from what to what. `SchemaValidator` saves schemas with `check=False`; with `check=True` it raises for a missing reference if `must_exist` is set and saves the schema otherwise, passes in silence if the schema is the reference, raises with `importance=\"fail\"` and warns with `importance=\"warn\"` if it is another one, naming exactly what changed. A run without error and warning means that every value has the schema that was recorded for it, and recording followed by checking the same results passes.", "quantifier": "all schemas, nodes, settings, stored files and runs", "why_tests_cant": "Tests compare a few pairs of schemas, mostly through the functions for differences and with edited metadata; which combinations of settings and changes raise, warn or stay silent cannot be enumerated.", "anchors": ["hamilton/plugins/h_schema.py:19-233", "hamilton/plugins/h_schema.py:338-474"]}
{"id": "C75", "title": "Execution on a cluster gives the local result", "statement": "With `RayGraphAdapter` (and `RayWorkflowGraphAdapter`, `DaskGraphAdapter` with delayed functions) `execute` hands every needed function that is not overridden to the cluster exactly once, with the given values and the references of the calls of its parameters. In whatever order the cluster runs the calls, it never gets stuck, every function is run at most once with the arguments it gets locally, and the result that is fetched is what the result builder makes of the outputs of a local execution; if the local execution fails, so does this one, with an exception that a needed function raised.", "quantifier": "all function graphs, requests, inputs, overrides, result builders and orders in which the cluster runs the calls", "why_tests_cant": "The order in which a cluster runs calls is not under control of a test, and only few graphs are tried.", "anchors": ["hamilton/execution/graph_functions.py:201-224", "hamilton/plugins/h_ray.py:136-164", "hamilton/plugins/h_ray.py:244-268", "hamilton/plugins/h_dask.py:129-173", "hamilton/lifecycle/base.py:937-957"]}
{"id": "C76", "title": "Usage telemetry can be switched off, is anonymous and changes nothing", "statement": "Telemetry is off when `HAMILTON_TELEMETRY_ENABLED` says no (0/no/false/off in any case), or says nothing that can be understood and `telemetry_enabled` in the section DEFAULT of the configuration file says no. Once it is off - from the start or by `disable_telemetry()` - no event is ever sent again, whatever is done. While it is on at most ten events are sent per process. What is sent depends on counts, success, names of the library's own classes and functions and places in the library's own code only: two processes that differ in the user's names, values, results, messages, own classes and own code send the same events. Switching telemetry on or off, and failures in making or sending events, do not change what a call returns or raises. The configuration file keeps what the user wrote.", "quantifier": "all contents of the configuration file and of the environment variable, all sequences of constructions, executions, other driver calls, dataflow functions, contrib imports and commands, with all outcomes", "why_tests_cant": "That nothing is sent after opting out, and that nothing about the user is ever in an event, are statements about all sequences of calls and about pairs of runs; tests look at single events with telemetry disabled for the test session.", "anchors": ["hamilton/telemetry.py:59-147", "hamilton/telemetry.py:397-502", "hamilton/driver.py:61-88", "hamilton/driver.py:481-520", "hamilton/driver.py:664-701", "hamilton/async_driver.py:379-432", "hamilton/dataflows/__init__.py:46-59", "hamilton/contrib/__init__.py:14-32", "hamilton/function_modifiers/base.py:43-62"]}
{"id": "C77", "title": "A driver made from modules of plain functions computes what the functions say", "statement": "For a driver built from modules of functions without decorators: the graph has one node per public function that the modules define themselves and that config does not shadow (the last definition of a name), with one dependency per parameter, optional exactly for parameters with a default; construction complains about annotations exactly if a parameter or a result of such a function has none. If `execute` returns, the value of every requested function is the one that the text of the program gives: overridden, configured and given values first, otherwise the body of the function run with its parameters bound to the values of those names, and to the defaults where nothing gives a value. Conversely, if the program gives values to all requested names, execution returns them.", "quantifier": "all modules with all functions (any signatures, defaults, annotations, bodies), configurations, inputs, overrides and requests", "why_tests_cant": "This is the meaning of the declarative style itself, for every program; tests check single modules.", "anchors": ["hamilton/node.py:87-121", "hamilton/node.py:264-307", "hamilton/graph_utils.py:6-26", "hamilton/graph.py:145-187", "hamilton/execution/graph_functions.py:100-260"]}
{"id": "C78", "title": "Drawings show exactly the selected part of the dataflow", "statement": "Let the names of nodes not clash with the identifiers a drawing uses for itself. Then `display_all_functions`, `visualize_execution`, `display_downstream_of`, `display_upstream_of` and `visualize_path_between` draw: exactly one box for every selected function, with its name and type, marked as output, override, expand, collect or materializer exactly if it is; one box per config entry; an arrow between two functions exactly if both are selected and one is a parameter of the other; for every selected function with selected inputs exactly one table with exactly these inputs (shared between functions exactly if asked for and the inputs are the same; none if inputs are hidden); arrows out of expand and into collect functions are decorated as such; if schemas are shown, every column of the schema of a drawn function is in its table of columns; and nothing else but the legend. Selected is: everything; what the execution needs (every function the execution calls has a box); what is downstream of the names plus direct dependencies; what is upstream; what lies on a path, the arrows on a path being exactly the coloured ones. The legend explains the classes of boxes that occur; the text of types and values is escaped and cut after 80 characters.", "quantifier": "all drivers, configurations, requests, inputs, overrides, options and iteration orders of sets", "why_tests_cant": "Tests compare a few DOT files; whether a box, an arrow or a table is missing, repeated or misattributed depends on the shape of the graph, the selection, the sharing of inputs and the identifiers of other boxes, over all of which the claim quantifies.", "anchors": ["hamilton/graph.py:202-664", "hamilton/graph.py:767-823", "hamilton/graph.py:855-948", "hamilton/driver.py:890-1092", "hamilton/driver.py:1150-1281", "hamilton/driver.py:1320-1440"]}
{"id": "C79", "title": "Execution as Spark UDFs computes row by row what plain execution computes", "statement": "Let a table be given, under the names of its columns, to a driver with `PySparkUDFGraphAdapter`, beside any other inputs and overrides. If the execution gives a result, the result has as many rows as the table in the same order, the columns of the table first and unchanged, then the requested outputs in the order of the request; the cell of an output in a row is the value that plain execution of the functions gives when every use of the table is replaced by the cell of that row (and there is no value exactly if plain execution on that row would fail); an input that was not supplied is a null. Afterwards the adapter can be used again as if new. There is a result whenever the functions that depend on the table have types that Spark can represent, an output depends on the table, and plain execution succeeds on the first row.", "quantifier": "all functions, tables, inputs, overrides, requests and annotations", "why_tests_cant": "Tests run a few functions on a small table. Whether the columns of intermediate results, the bound parameters, defaults and the state of the adapter combine to the right value in every row depends on the order of execution and on names of parameters and columns, over all of which the claim quantifies.", "anchors": ["hamilton/plugins/h_spark.py:221-422", "hamilton/plugins/h_spark.py:425-523", "hamilton/driver.py:164-183"]}
{"id": "C80", "title": "@with_columns and @select for PySpark add row by row what the functions compute", "statement": "Let a function be decorated with `@with_columns(*functions, columns_to_pass=…, select=…)` or `@select(…)` of the PySpark plugin, and let its first parameter be a table. The decorated function sees, in place of the table, one with as many rows in the same order, with the selected functions (all, if `select` is not given) as columns; `@with_columns` keeps the columns of the table and appends new ones, `@select` keeps only the selected ones in the given order. The cell of a selected function in a row is what a separate driver with these functions computes when the parameters among `columns_to_pass` are the cells of that row and all other parameters are what the surrounding dataflow computes (there is no value exactly if the separate driver fails on that row). Other parameters of the decorated function are unaffected. Without a table there is no value; with one, there is a value whenever the parameters are available and the types can be represented.", "quantifier": "all sets of functions, selections, tables, inputs, overrides and surrounding graphs", "why_tests_cant": "Tests apply a few functions to a small table. The functions become a chain of nodes that each add a column to the table, so that the result depends on the topological order, pruning, renaming and on which names are columns, over all of which the claim quantifies.", "anchors": ["hamilton/plugins/h_spark.py:526-617", "hamilton/plugins/h_spark.py:907-1311", "hamilton/function_modifiers/recursive.py:819-851"]}
{"id": "C81", "title": "Dry runs agree with execution, however the outputs are requested", "statement": "Outputs may be requested by name, by a function of the driver's modules, or by a `Variable`; it makes no difference to `execute` and `has_cycles` which is used, and if a request is none of these they, `materialize` and `validate_materialization` refuse the whole list before anything is looked up or run. `validate_execution` refuses exactly what `execute` refuses before running, with the same error; if it accepts, `execute` can only fail with the exception of a needed function called with its right arguments or by running in a circle; likewise `validate_materialization` and `materialize`. `has_cycles` is true exactly if a requested node depends, directly or not, on a node that depends on itself; if it is false no execution of the request recurses endlessly whatever the inputs and overrides, if it is true none without overrides returns. `export_execution` lists, sorted by name and each once, exactly the nodes a run with these inputs and overrides looks at, with their required and optional parameters.", "quantifier": "all dataflows, requests, inputs, overrides, materializers and extractors", "why_tests_cant": "Tests compare a dry run with a run on a few small graphs. The claim relates two different code paths for every graph, with every combination of inputs, overrides, optional parameters and circles.", "anchors": ["hamilton/common/__init__.py:5-57", "hamilton/driver.py:584-662", "hamilton/driver.py:1099-1136", "hamilton/driver.py:1792-1845", "hamilton/graph.py:667-689", "hamilton/graph.py:825-849", "hamilton/graph_types.py:88-155"]}
{"id": "C82", "title": "Drivers made from Kedro pipelines compute what the pipelines compute", "statement": "`kedro_pipeline_to_driver` converts pipelines whose nodes have no output, one output, a list of outputs of a function annotated as a tuple, or a dictionary of outputs named by its keys. Running the driver on the same data gives every dataset of the pipelines exactly the value that running the pipelines gives it: the inputs of a node are passed by position to the parameters of its function, `params:x` is the parameter x, parameters that are not fed keep their defaults, and several outputs are the components of the returned tuple by position or the entries of the returned dictionary by key; and if the pipelines give a dataset a value, the driver can compute it.", "quantifier": "all pipelines, functions, data and requested datasets", "why_tests_cant": "Tests convert one or two example pipelines. The claim compares the renaming of parameters, the splitting of results and the naming of nodes with Kedro's meaning for every pipeline and every function.", "anchors": ["hamilton/plugins/h_kedro.py:13-31", "hamilton/plugins/h_kedro.py:34-87", "hamilton/plugins/h_kedro.py:90-134", "hamilton/node.py:382-398", "hamilton/graph.py:144-160"]}
{"id": "C83", "title": "The @parameterize family accepts exactly the well-formed specifications and makes the nodes they ask for", "statement": "`group` is either a list or a dictionary of at least one `value` or `source`. `@parameterize` accepts only dependencies as replacements; `@parameterize_values`, `@parametrized_input`, `@parameterize_sources` and `@inject` are shorthands for it: one value, or one input, per output with its docstring; only sources; and the function itself as the only output. A function may be decorated iff the docstrings needed can be formatted, no parameter is called output_name, everything replaced is a parameter, and groups replace parameters annotated as lists, or as dictionaries from strings, possibly optional. It then becomes one node per output, in the given order, with the output's own docstring or the function's with {output_name} and the replaced parameters filled in; inputs have the types of the parameters they replace, members of groups the type of the members; and the value of each output is what the function returns on the arguments specified.", "quantifier": "all decorators of the family, functions, annotations, docstrings, and graphs that contain the nodes", "why_tests_cant": "Tests try single decorators on small functions. The claim is an equivalence: every ill-formed specification is refused and every well-formed one is accepted and turned into the right nodes, for all mappings and annotations.", "anchors": ["hamilton/function_modifiers/expanders.py:97-130", "hamilton/function_modifiers/expanders.py:147-281", "hamilton/function_modifiers/expanders.py:283-360", "hamilton/function_modifiers/expanders.py:361-400", "hamilton/function_modifiers/expanders.py:424-443", "hamilton/function_modifiers/expanders.py:479-512", "hamilton/function_modifiers/expanders.py:525-553", "hamilton/function_modifiers/expanders.py:983-989", "hamilton/function_modifiers/dependencies.py:61-118", "hamilton/function_modifiers/dependencies.py:149-208"]}
{"id": "C84", "title": "Traces and progress bars mirror the run", "statement": "With the Datadog tracer, however runs, tasks and nodes are interleaved and in whatever processes the tasks are executed, no hook of the tracer raises; there is one span for each run, task and node that began, in that order; that of a run hangs below the trace that was active, that of a task below its run, that of a node below its task or else its run; it is finished iff what it stands for has ended, with its error; with causal links, a node is linked to the nodes it uses that were computed in the same task; and once all runs are over nothing is kept. With the OpenTelemetry tracer, a nested history of hooks leaves a trace with the same nesting below the span that was current, and leaves the context as it was, in every interleaving of threads or asyncio tasks. The progress bar of a successful run without overrides counts every function once and ends full and closed, and names are shown in exactly its width.", "quantifier": "all interleavings of hooks of any number of runs, tasks, nodes, processes, threads; all graphs, inputs and requests for the progress bar", "why_tests_cant": "Which span is found in which cache depends on the interleaving of concurrent runs and on when the adapter was copied to a worker. Tests run one schedule each.", "anchors": ["hamilton/plugins/h_ddog.py:22-258", "hamilton/plugins/h_ddog.py:261-503", "hamilton/plugins/h_opentelemetry.py:25-58", "hamilton/plugins/h_opentelemetry.py:61-149", "hamilton/plugins/h_tqdm.py:33-104", "hamilton/lifecycle/api.py:290-330", "hamilton/execution/executors.py:85-150"]}
{"id": "C85", "title": "Result stores give back what was stored", "statement": "After any history of set, delete and delete_all, get(version) of a result store returns the value set last under that data version and not deleted since, whichever store is used and whichever format each value was written in, and exists(version) says whether there is one. Arguments that do not fit are refused without changing anything. So a lookup of the caching adapter is a hit with the stored value, or no hit. delete_expired deletes nothing that is not expired and does not fail.", "quantifier": "all histories of operations, all values, data versions and formats", "why_tests_cant": "A value may have been written in one format, again in another, deleted and written again; files of different results share one directory. Tests try a few sequences.", "anchors": ["hamilton/caching/stores/file.py:16-123", "hamilton/caching/stores/memory.py:167-206", "hamilton/caching/stores/base.py:154-224", "hamilton/caching/adapter.py:1314-1346", "hamilton/caching/adapter.py:1426-1452"]}
{"id": "C86", "title": "Moving a cache between stores keeps it", "statement": "persist_to writes every run of an in-memory metadata store, in order, and every key with its version into the other store and changes nothing the other store already has; load_from gives an in-memory store with the same runs, the same version for every key and the same nodes in every run; persisting into a new database and loading again gives a store that answers everything the same. Persisted results are found in the files with their values, everything else there is unchanged; loaded results are those of the data versions asked for, with their values.", "quantifier": "all histories of the stores on both sides", "why_tests_cant": "Stores are copied in whatever state the runs before have left them: several runs sharing keys, deletions, keys the target has already. Tests copy a store after one run.", "anchors": ["hamilton/caching/stores/memory.py:58-138", "hamilton/caching/stores/memory.py:208-279", "hamilton/caching/stores/sqlite.py:106-266"]}
{"id": "C87", "title": "Options of data loaders and savers reach the library", "statement": "Using a data loader or saver of the pandas, polars, Hugging Face, LightGBM, matplotlib, numpy, plotly, scikit-learn or dlt plugin calls the library function it is documented to map to, once, with the location where that function takes it, and with every option under its own name and with the value given (or the default of the class), and with nothing else. A dict of further keyword arguments is passed on entry by entry and wins over the options. An option the class does not know and a missing location are refused before anything is called. With a location of a declared type the adapter returns after the call.", "quantifier": "all 67 adapters, all combinations of options and values, all versions of pandas", "why_tests_cant": "The classes copy hundreds of options by hand, one statement each. Tests give a few options to each adapter and compare the data, so that a forgotten or misnamed option goes unseen.", "anchors": ["hamilton/plugins/pandas_extensions.py:89-1749", "hamilton/plugins/polars_post_1_0_0_extensions.py:55-807", "hamilton/plugins/polars_pre_1_0_0_extension.py:70-832", "hamilton/plugins/polars_lazyframe_extensions.py:75-293", "hamilton/plugins/huggingface_extensions.py:50-156", "hamilton/plugins/numpy_extensions.py:17-87", "hamilton/plugins/plotly_extensions.py:15-132", "hamilton/io/utils.py:16-136"]}
{"id": "C88", "title": "Run recorders record what a run did and leave it alone", "statement": "With the MLflow tracker, the experiment tracker, the OpenLineage adapter or the Slack notifier among the adapters, an execution ends as it would without. MLflow has one run per execution with identifier, code version, configuration and inputs, one entry per computed final variable and per saver with a path, the right node and function at registered models, and the status of the execution; nothing stays active. The experiment tracker stores one record with success, inputs with defaults, overrides and the absolute places savers wrote to; savers run in the directory of the run, everything else in the directory of the process, which is restored. OpenLineage emits one START, one RUNNING per successful loader or saver with metadata, and one COMPLETE or FAIL, also when executions overlap. Slack gets one message per failed node.", "quantifier": "all runs: graphs, inputs, final variables, results, failures; any number of runs; any interleaving (OpenLineage)", "why_tests_cant": "Tests run one small successful flow per tracker. What happens with failing nodes, missing inputs, second and overlapping executions is a matter of all sequences of hook calls.", "anchors": ["hamilton/plugins/h_mlflow.py:36-318", "hamilton/plugins/h_experiments/hook.py:27-202", "hamilton/plugins/h_experiments/cache.py:4-22", "hamilton/plugins/h_openlineage.py:36-368", "hamilton/plugins/h_slack.py:10-83", "hamilton/execution/graph_functions.py:255-331", "hamilton/driver.py:584-652"]}
{"id": "C89", "title": "Caching is transparent in task-based execution", "statement": "With a cache and the task-based executor, after any earlier runs of any dataflows with other code and inputs, and any deletions from the stores, every node gets in every task the value it gets without cache, and the run ends with the same exception if any. In particular branches of a Parallelizable block do not get each other's values, a node that collects gets the result for the items collected in this run, and branches that run at the same time find the versions they recorded. Running the same again, also after other runs, executes only nodes that are recomputed, parallelizable nodes and a node that raised.", "quantifier": "all dataflows, schedules of tasks, inputs, overrides, caching behaviours other than ignore, histories of the cache; all interleavings of two threads recording versions", "why_tests_cant": "Tests cache one small Parallelizable flow with fixed items. Whether versions of branches, items and collections are ever mixed up depends on all histories of the stores, and races on all interleavings.", "anchors": ["hamilton/caching/adapter.py:HamiltonCacheAdapter", "hamilton/caching/cache_key.py:create_cache_key", "hamilton/execution/graph_functions.py:execute_subdag"]}
{"id": "C90", "title": "The log of the cache tells what a run did", "statement": "`cache.logs(run_id)` has for each node that got a value in that run, under its name (or name and task), exactly one entry, which says 'execute node' if the function was called in the run and 'get result' if the value came from the cache; nodes that got no value have none. `cache.view_run` draws as final variables, inputs and overrides what the run was called with and marks exactly the nodes that were not executed as from cache; with task-based execution it refuses. Events of runs at the same time go each to the log of its own run, in order, and `cache.logs()` lists all runs.", "quantifier": "all dataflows, schedules, inputs, overrides, caching behaviours other than ignore, histories of the cache, interleavings of runs", "why_tests_cant": "Tests look at the log of a few fixed runs. That the log never claims a retrieval for an executed node, or the reverse, depends on every path through the three hooks and every state of the stores.", "anchors": ["hamilton/caching/adapter.py:HamiltonCacheAdapter.logs", "hamilton/caching/adapter.py:HamiltonCacheAdapter.view_run", "hamilton/caching/adapter.py:HamiltonCacheAdapter._log_event"]}
{"id": "C91", "title": "Results can be read from the cache after a run", "statement": "For every value that a run computed, of a node whose caching is not disabled, `cache.get_data_version(run_id, node, task_id=...)` gives a version, and `cache.result_store.get(version)` gives that value, in every task, also if the run ended with an exception, and after any further runs of any dataflows. Equal versions of two nodes, in one run or in different ones, mean equal values.", "quantifier": "all dataflows, schedules, inputs, caching behaviours other than ignore, histories of runs and deletions before, runs afterwards", "why_tests_cant": "Tests read a few results right after one run. That a version never points to nothing, to the result of another task or to a result that a later run replaced depends on the whole history of the stores and on each path by which a value can get its version.", "anchors": ["hamilton/caching/adapter.py:HamiltonCacheAdapter.get_data_version", "hamilton/caching/adapter.py:HamiltonCacheAdapter.post_node_execute", "hamilton/caching/stores/base.py:ResultStore", "docs/concepts/caching.rst"]}
{"id": "C92", "title": "Deprecated functions and decorators keep working until the announced version", "statement": "Until the version from which warnings are announced, a function or class with a deprecation notice behaves as without it; from then on each use gives one warning that names the replacement and behaves as before; from the version announced for failure on, a use raises `DeprecationError` and does nothing else. For classes the notices of the class and of the bases whose method is used apply, in that order. A notice without replacement and guide, with a failure that is not a major release, or before its warnings, is refused. What the library announces (`raw_execute`, `parametrized`, `parametrized_input`, `parameterized_inputs`, `dynamic_transform`, `pipe`) follows this.", "quantifier": "all notices, versions, functions, arguments, and programs of classes with single inheritance", "why_tests_cant": "Tests run with the one installed version and a few notices. What happens in a later version, or with deprecated classes that inherit from each other, is only seen by users after upgrading.", "anchors": ["hamilton/dev_utils/deprecation.py:deprecated", "hamilton/function_modifiers/macros.py:dynamic_transform", "hamilton/function_modifiers/macros.py:pipe", "hamilton/function_modifiers/expanders.py:parametrized", "hamilton/driver.py:Driver.raw_execute"]}
{"id": "C93", "title": "Extensions are loaded as switched, and their types are found", "statement": "After `registry.disable_autoload()`, or in processes started after `hamilton-disable-autoload-extensions`, importing the driver loads no extension until `registry.enable_autoload()` is called; extensions the user loads are there. After `hamilton-enable-autoload-extensions`, or where nothing was switched off, it loads every extension that can be imported and skips the others. The switches leave the other options of the configuration file alone. The column type found for a data frame type is the one registered last with it; for unknown types `NotImplementedError` is raised, which `@extract_columns` reports as an invalid decorator.", "quantifier": "all sequences of switching, loading, importing and restarting, all environments, all contents of the configuration file, all outcomes of importing extensions, all registrations", "why_tests_cant": "The switches work through the environment, a file and the time of imports, so that the order of calls over several processes matters; tests patch one of them at a time in one process in which everything is already loaded.", "anchors": ["hamilton/registry.py:initialize", "hamilton/registry.py:load_autoload_config", "hamilton/registry.py:config_enable_autoload", "hamilton/registry.py:get_column_type_from_df_type", "docs/how-tos/extensions-autoloading.rst"]}
{"id": "C94", "title": "Modules made on the fly hold the functions given", "statement": "`create_temporary_module(*functions, module_name=...)` makes a module exactly if the name is not taken, all arguments are functions, and their names differ and do not start with an underscore; otherwise it raises and `sys.modules` stays as it is. A driver finds in the module one function per function given, under the same name, with the same annotations, decorators and documentation, and with the same signature and results. The functions given and all other modules stay as they are, and changing (decorating, renaming) the functions given afterwards does not change the module, nor the other way round. `module_from_source` makes a module whose functions are those the source defines, and leaves other modules as they are.", "quantifier": "all functions, arguments and names of modules, all states of sys.modules, all later changes of function objects, all sequences of definitions and imports in a source", "why_tests_cant": "Tests make modules of one or two plain functions; that copies behave like the originals for every signature and call, and stay independent of them whatever is done later, is about all functions and histories.", "anchors": ["hamilton/ad_hoc_utils.py:15-21", "hamilton/ad_hoc_utils.py:29-64", "hamilton/ad_hoc_utils.py:67-81", "hamilton/graph_utils.py:6-24"]}
{"id": "C95", "title": "Drivers and caches sent to another process behave as before", "statement": "A driver can be pickled and loaded: the copy has the same modules and attributes (graph, adapters, configuration) and accepts the same requests of outputs, given as names, variables or functions. A caching adapter can be pickled and loaded, again and again: every copy has the same settings and records of runs, and reads and writes the same metadata and the same results as the original.", "quantifier": "all drivers, modules and processes, all requests, all caches with their stores, attributes and paths, any number of trips between processes with any working directories", "why_tests_cant": "Tests pickle one driver in the same process; that the copies share the stores and settings whatever the paths, processes and number of trips is about all of them.", "anchors": ["hamilton/driver.py:280-305", "hamilton/caching/adapter.py:270-297", "hamilton/caching/stores/sqlite.py:27-35", "hamilton/caching/stores/file.py:24-28", "hamilton/common/__init__.py:5-57"]}
