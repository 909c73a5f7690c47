import Verif.Model.Caching

/-!
The caching adapter (`hamilton/caching/adapter.py`, `HamiltonCacheAdapter`) in task-based execution: every hook gets a
`task_id`, versions and keys of the nodes of parallel blocks are kept per task. Data loaders, savers, `@cache(format=…)` and
logging are left out here (the first three are in `Verif.Model.Caching`); the metadata store is a map (C30).
-/
namespace Verif.TaskCache
variable {V : Type}

/-- What the adapter takes from elsewhere. `hashList` is `fingerprinting.hash_value` of a list of strings; `items` are the
elements of a value that is iterated over; `listOf` makes a list. -/
structure TaskEnv (V : Type) extends CacheEnv V where
  hashList : List String → String
  items : V → List V
  listOf : List V → V

/-- `Node.node_role` (node.py:189-191) with `Node.collect_dependency` (node.py:128-138). -/
inductive Kind where
  | plain
  | expand
  | collect (dep : Name)
  deriving DecidableEq, Repr

/-- `NodeRoleInTaskExecution`, adapter.py:89-99, without STANDARD (there is always a task here). -/
inductive Role where
  | outside | inside | expand | collect
  deriving DecidableEq, Repr

/-- `_get_node_role`, adapter.py:519-537, with a task. -/
def roleOf (kind : Kind) (name : Name) (task : String) : Role :=
  match kind with
  | .expand => .expand
  | .collect _ => .collect
  | .plain => if name = task then .outside else .inside

/-- An entry of `data_versions[run_id]` or `cache_keys[run_id]`: a string, or one string per task
(adapter.py:256-263). -/
inductive Entry where
  | one (s : String)
  | perTask (d : Dict String String)
  deriving DecidableEq, Repr

/-- State of the adapter and its stores: `store` the metadata store, `results` the result store, `versions` and `keys` are
`data_versions[run_id]` and `cache_keys[run_id]` (adapter.py:248-263). Ghost fields: `counter` counts the uuids drawn, `issued` records the value
each random version was made for, `executed` the functions run, with their tasks. -/
structure State (V : Type) where
  store : Dict CKey String
  results : Dict String V
  versions : Dict Name Entry
  keys : Dict Name Entry
  counter : Nat
  issued : List (String × V)
  executed : List (Name × String)

/-- What the hooks look up about the dataflow of the run: `node_role` of each node, `behaviors[run_id]`,
`code_versions[run_id]`, and the functions. A parallelizable node is always recomputed (adapter.py:856-857). The dicts are
total here: no `KeyError` for a name that is not in the graph. -/
structure Flow (V : Type) where
  kinds : Name → Kind
  behavior : Name → Behavior
  codes : Name → String
  fns : Name → Dict Name V → Except UserErr V

/-- `behaviors[run_id][name]` as resolved by `_resolve_node_behavior`, adapter.py:839-890: the start of the function; the rest
is in `Verif.Model.Behaviors`. -/
def Flow.behaviorOf (f : Flow V) (name : Name) : Behavior :=
  match f.kinds name with
  | .expand => .recompute
  | _ => f.behavior name

/-- A random version: `prefix + f"_{uuid.uuid4()}"`, adapter.py:801 and 1182. -/
def State.fresh (env : TaskEnv V) (pre : String) (v : V) (s : State V) : String × State V :=
  let d := pre ++ "_" ++ env.uuid s.counter
  (d, { s with counter := s.counter + 1, issued := (d, v) :: s.issued })

/-- `_version_data`, adapter.py:779-803. -/
def State.versionData (env : TaskEnv V) (v : V) (s : State V) : String × State V :=
  match env.hash v with
  | some d => (d, s)
  | none => s.fresh env "<unhashable>" v

/-- The items of a collected value are versioned one by one, adapter.py:1198. -/
def State.versionItems (env : TaskEnv V) : List V → State V → List String × State V
  | [], s => ([], s)
  | v :: rest, s =>
    let p := s.versionData env v
    let q := State.versionItems env rest p.2
    (p.1 :: q.1, q.2)

/-- Setting an entry for a node and a task, adapter.py:591-605 (keys) and 728-742 (versions): the nodes of blocks have one string
per task; storing into a string is a `TypeError`. -/
def setEntry (role : Role) (name : Name) (task : String) (x : String) (d : Dict Name Entry) :
    Except UserErr (Dict Name Entry) :=
  match role with
  | .inside =>
    match d.get? name with
    | none => .ok (d.set name (.perTask [(task, x)]))
    | some (.perTask m) => .ok (d.set name (.perTask (m.set task x)))
    | some (.one _) => .error "TypeError"
  | _ => .ok (d.set name (.one x))

/-- `_set_memory_metadata`, adapter.py:722-752: a parallelizable node gets an empty dict. -/
def setVersion (role : Role) (name : Name) (task : String) (x : String) (s : State V) : Except UserErr Unit × State V :=
  match role with
  | .expand => (.ok (), { s with versions := s.versions.set name (.perTask []) })
  | role =>
    match setEntry role name task x s.versions with
    | .error e => (.error e, s)
    | .ok d => (.ok (), { s with versions := d })

/-- `_get_memory_data_version`, adapter.py:616-658, for the node and task of the hook. A dict found for a node outside of blocks
would be used as a version, which the stores cannot look up: a `TypeError`. -/
def memVersion (role : Role) (name : Name) (task : String) (s : State V) : Except UserErr (Option String) :=
  match role with
  | .expand => .ok none
  | .inside =>
    match s.versions.get? name with
    | some (.perTask m) => .ok (m.get? task)
    | _ => .ok none
  | _ =>
    match s.versions.get? name with
    | some (.one x) => .ok (some x)
    | some (.perTask _) => .error "TypeError"
    | none => .ok none

/-- `get_cache_key`, adapter.py:538-580; `str` has no method `get`. -/
def getKey (role : Role) (name : Name) (task : String) (s : State V) : Except UserErr CKey :=
  match role with
  | .inside =>
    match s.keys.get? name with
    | none => .ok none
    | some (.perTask m) => .ok (m.get? task)
    | some (.one _) => .error "AttributeError"
  | _ =>
    match s.keys.get? name with
    | some (.one x) => .ok (some x)
    | some (.perTask _) => .error "TypeError"
    | none => .ok none

/-- `get_data_version`, adapter.py:680-721: first in memory, then in the metadata store. -/
def getDataVersion (role : Role) (name : Name) (task : String) (key : CKey) (s : State V) :
    Except UserErr (Option String) :=
  match memVersion role name task s with
  | .error e => .error e
  | .ok (some x) => .ok (some x)
  | .ok none =>
    match key with
    | none => .ok none
    | some k => .ok (s.store.get? (some k))

/-- The parameter whose value is versioned item by item, adapter.py:1167-1169. -/
def collected : Kind → Option Name
  | .collect d => some d
  | _ => none

/-- `data_versions[run_id]` read for a dependency, adapter.py:1206-1215: without an entry the value passed is versioned; in a
dict the current task is looked up. A task that is not there gives `None`, and joining the versions into the cache key raises
(cache_key.py:14-16). -/
def lookupDep (env : TaskEnv V) (task : String) (d : Name) (v : V) (s : State V) : Except UserErr String × State V :=
  match s.versions.get? d with
  | none => let p := s.versionData env v; (.ok p.1, p.2)
  | some (.one x) => (.ok x, s)
  | some (.perTask m) =>
    match m.get? task with
    | none => (.error "TypeError", s)
    | some x => (.ok x, s)

/-- The body of the loop in `pre_node_execute`, adapter.py:1172-1222, for one dependency of a node with collected parameter
`col`. -/
def depVersion (env : TaskEnv V) (f : Flow V) (col : Option Name) (task : String) (d : Name) (v : V) (s : State V) :
    Except UserErr String × State V :=
  match f.behaviorOf d with
  | .ignore => (.ok "<ignore>", s)
  | .disable => let p := s.fresh env "<disable>" v; (.ok p.1, p.2)
  | _ =>
    if col = some d then
      let p := s.versionItems env (env.items v)
      (.ok (env.hashList (sortBy strLe p.1)), p.2)
    else
      match f.kinds d with
      | .expand => let p := s.versionData env v; (.ok p.1, p.2)
      | _ => lookupDep env task d v s

/-- The loop of adapter.py:1171-1222. -/
def depVersions (env : TaskEnv V) (f : Flow V) (col : Option Name) (task : String) :
    Dict Name V → Dict Name String → State V → Except UserErr (Dict Name String) × State V
  | [], acc, s => (.ok acc, s)
  | (d, v) :: rest, acc, s =>
    match depVersion env f col task d v s with
    | (.error e, s) => (.error e, s)
    | (.ok x, s) => depVersions env f col task rest (acc.set d x) s

/-- `_set_cache_key`, adapter.py:582-614. -/
def setKey (role : Role) (name : Name) (task : String) (key : String) (s : State V) : Except UserErr Unit × State V :=
  match setEntry role name task key s.keys with
  | .error e => (.error e, s)
  | .ok d => (.ok (), { s with keys := d })

/-- `pre_node_execute`, adapter.py:1133-1232. The arguments are those with default values filled in. -/
def preNode (env : TaskEnv V) (f : Flow V) (name : Name) (task : String) (kw : Dict Name V) (s : State V) :
    Except UserErr Unit × State V :=
  match f.behaviorOf name with
  | .ignore => (.ok (), s)
  | .disable => (.ok (), s)
  | _ =>
    match depVersions env f (collected (f.kinds name)) task kw [] s with
    | (.error e, s) => (.error e, s)
    | (.ok deps, s) =>
      setKey (roleOf (f.kinds name) name task) name task
        (createCacheKey env.codec env.alnum name (f.codes name) deps) s

/-- After executing a node, adapter.py:1264-1300 and 1354-1383: version the result, record the version in memory and in the
metadata store. -/
def recordResult (env : TaskEnv V) (role : Role) (name : Name) (task : String) (key : CKey) (v : V) (s : State V) :
    Except UserErr V × State V :=
  let p := s.versionData env v
  match setVersion role name task p.1 p.2 with
  | (.error e, s) => (.error e, s)
  | (.ok (), s) => (.ok v, { s with store := s.store.set key p.1 })

/-- `_execute_node`, adapter.py:819-838. -/
def callNode (f : Flow V) (name : Name) (task : String) (kw : Dict Name V) (s : State V) : Except UserErr V × State V :=
  (f.fns name kw, { s with executed := s.executed ++ [(name, task)] })

/-- Execute the node and record its result, adapter.py:1255-1300 and 1346-1383. -/
def executeAndRecord (env : TaskEnv V) (f : Flow V) (name : Name) (task : String) (kw : Dict Name V) (s : State V) :
    Except UserErr V × State V :=
  match callNode f name task kw s with
  | (.error e, s) => (.error e, s)
  | (.ok v, s) =>
    match getKey (roleOf (f.kinds name) name task) name task s with
    | .error e => (.error e, s)
    | .ok key => recordResult env (roleOf (f.kinds name) name task) name task key v s

/-- Use the stored result for a version if there is one, adapter.py:1307-1352. -/
def retrieve (env : TaskEnv V) (f : Flow V) (name : Name) (task : String) (kw : Dict Name V) (ver : Option String)
    (s : State V) : Except UserErr V × State V :=
  match ver with
  | none => executeAndRecord env f name task kw s
  | some x =>
    if x = "<unhashable>" then executeAndRecord env f name task kw s
    else
      match s.results.get? x with
      | none => executeAndRecord env f name task kw s
      | some v =>
        match setVersion (roleOf (f.kinds name) name task) name task x s with
        | (.error e, s) => (.error e, s)
        | (.ok (), s) => (.ok v, s)

/-- `do_node_execute`, adapter.py:1234-1385. -/
def doNode (env : TaskEnv V) (f : Flow V) (name : Name) (task : String) (kw : Dict Name V) (s : State V) :
    Except UserErr V × State V :=
  match f.behaviorOf name with
  | .disable => callNode f name task kw s
  | .recompute => executeAndRecord env f name task kw s
  | .ignore => executeAndRecord env f name task kw s
  | .default =>
    match getKey (roleOf (f.kinds name) name task) name task s with
    | .error e => (.error e, s)
    | .ok key =>
      match getDataVersion (roleOf (f.kinds name) name task) name task key s with
      | .error e => (.error e, s)
      | .ok ver => retrieve env f name task kw ver s

/-- `post_node_execute` after success, adapter.py:1387-1459. -/
def postNode (f : Flow V) (name : Name) (task : String) (v : V) (s : State V) : Except UserErr Unit × State V :=
  match f.behaviorOf name with
  | .disable => (.ok (), s)
  | _ =>
    match getKey (roleOf (f.kinds name) name task) name task s with
    | .error e => (.error e, s)
    | .ok key =>
      match getDataVersion (roleOf (f.kinds name) name task) name task key s with
      | .error e => (.error e, s)
      | .ok none => (.error "AssertionError", s)
      | .ok (some x) => if s.results.has x then (.ok (), s) else (.ok (), { s with results := s.results.set x v })

/-- `execute_lifecycle_for_node`, graph_functions.py:255-331, with the caching adapter. -/
def cachedNode (env : TaskEnv V) (f : Flow V) (name : Name) (task : String) (kw : Dict Name V) (s : State V) :
    Except UserErr V × State V :=
  match preNode env f name task kw s with
  | (.error e, s) => (.error e, s)
  | (.ok (), s) =>
    match doNode env f name task kw s with
    | (.error e, s) => (.error e, s)
    | (.ok v, s) =>
      match postNode f name task v s with
      | (.error e, s) => (.error e, s)
      | (.ok (), s) => (.ok v, s)

/-! ### Runs -/

/-- Where the value of an argument comes from in task-based execution (executors.py:80-151, state.py:209-328): a value given
by the user, the result of the dependency in some task, one item of the result of a parallelizable dependency, or the results
of the dependency in several tasks. -/
inductive Src (V : Type) where
  | value (v : V)
  | result (task : String)
  | item (task : String) (i : Nat)
  | gathered (tasks : List String)

/-- The results of the run so far, by node and task (state.py:60-116). -/
abbrev Vals (V : Type) := Dict (Name × String) V

/-- The results of a node in several tasks (state.py:464-479). -/
def gather (vals : Vals V) (d : Name) : List String → Option (List V)
  | [] => some []
  | t :: rest =>
    match vals.get? (d, t), gather vals d rest with
    | some v, some vs => some (v :: vs)
    | _, _ => none

/-- The value passed for the dependency `d` (state.py:455-490, executors.py:113-122). -/
def Src.eval (env : TaskEnv V) (vals : Vals V) (d : Name) : Src V → Option V
  | .value v => some v
  | .result t => vals.get? (d, t)
  | .item t i => (vals.get? (d, t)).bind (fun v => (env.items v)[i]?)
  | .gathered ts => (gather vals d ts).map env.listOf

/-- Execution of a node in a task (executors.py:80-151). -/
structure Step (V : Type) where
  name : Name
  task : String
  args : List (Name × Src V)

/-- The keyword arguments of a step (state.py:455-490). -/
def evalArgs (env : TaskEnv V) (vals : Vals V) : List (Name × Src V) → Option (Dict Name V)
  | [] => some []
  | (d, src) :: rest =>
    match src.eval env vals d, evalArgs env vals rest with
    | some v, some kw => some ((d, v) :: kw)
    | _, _ => none

/-- What a run leaves: the results by node and task, and the exception that stopped it, if any (executors.py:359-404). -/
structure Outcome (V : Type) where
  vals : Vals V
  error : Option UserErr

/-- The steps of a run one after another, in the order in which the executors happen to execute them. An argument that is not
there is a `KeyError` (state.py:104-114). -/
def runSteps {S : Type} (env : TaskEnv V) (node : Name → String → Dict Name V → S → Except UserErr V × S) :
    List (Step V) → Vals V → S → Outcome V × S
  | [], vals, s => (⟨vals, none⟩, s)
  | st :: rest, vals, s =>
    match evalArgs env vals st.args with
    | none => (⟨vals, some "KeyError"⟩, s)
    | some kw =>
      match node st.name st.task kw s with
      | (.error e, s) => (⟨vals, some e⟩, s)
      | (.ok v, s) => runSteps env node rest (vals.set (st.name, st.task) v) s

/-- A run: the dataflow, what the user gives (inputs and overrides), and the steps (driver.py:208-252). -/
structure Run (V : Type) where
  flow : Flow V
  given : Dict Name V
  steps : List (Step V)

/-- `_process_input` (adapter.py:1031-1047) and `_process_override` (adapter.py:1049-1065). -/
def versionGiven (env : TaskEnv V) : Dict Name V → State V → State V
  | [], s => s
  | (d, v) :: rest, s =>
    let p := s.versionData env v
    versionGiven env rest { p.2 with versions := p.2.versions.set d (.one p.1) }

/-- `pre_graph_execute`, adapter.py:1085-1131. -/
def startRun (env : TaskEnv V) (r : Run V) (s : State V) : State V :=
  versionGiven env r.given { s with versions := [], keys := [], executed := [] }

/-- A run with the cache (driver.py:208-252). -/
def cachedRun (env : TaskEnv V) (r : Run V) (s : State V) : Outcome V × State V :=
  runSteps env (cachedNode env r.flow) r.steps [] (startRun env r s)

/-- A run without cache: every step calls its function (graph_functions.py:296-306). -/
def plainRun (env : TaskEnv V) (r : Run V) : Outcome V :=
  (runSteps env (fun name _ kw (s : Unit) => (r.flow.fns name kw, s)) r.steps [] ()).1

/-! ### Two threads -/

/-- Where a thread is in `_set_memory_metadata` for a node of a block, adapter.py:736-739: before the test, between the test
that found nothing and the creation of the dict, before the entry is stored, or done. -/
inductive Pc where
  | test | create | store | done
  deriving DecidableEq, Repr

/-- A thread storing the version `x` for its task (adapter.py:736-739). -/
structure Thread where
  task : String
  x : String
  pc : Pc
  deriving DecidableEq, Repr

/-- One statement of a thread on the shared `data_versions[run_id]`, adapter.py:737-739. The test and the two stores are
separate statements without a lock. Storing into a string, or with no dict there, is an exception: not modelled, the thread
stays where it is. -/
def Thread.step (name : Name) (t : Thread) (d : Dict Name Entry) : Thread × Dict Name Entry :=
  match t.pc with
  | .test => match d.get? name with
    | none => ({ t with pc := .create }, d)
    | some _ => ({ t with pc := .store }, d)
  | .create => ({ t with pc := .store }, d.set name (.perTask []))
  | .store => match d.get? name with
    | some (.perTask m) => ({ t with pc := .done }, d.set name (.perTask (m.set t.task t.x)))
    | _ => (t, d)
  | .done => (t, d)

/-- Two threads with any interleaving: `true` is a statement of the first (executors.py:272-277: a thread pool). -/
def interleave (name : Name) : List Bool → Thread × Thread × Dict Name Entry → Thread × Thread × Dict Name Entry
  | [], c => c
  | true :: rest, (a, b, d) =>
    let p := a.step name d
    interleave name rest (p.1, b, p.2)
  | false :: rest, (a, b, d) =>
    let p := b.step name d
    interleave name rest (a, p.1, p.2)

end Verif.TaskCache
