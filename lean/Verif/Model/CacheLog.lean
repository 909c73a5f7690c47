import Verif.Model.TaskCache

/-!
The log of the caching adapter (`hamilton/caching/adapter.py`) and what users read from it: `logs`, `view_run`,
`get_data_version`. The hooks themselves are those of `Verif.Model.TaskCache`; the functions here give the events each of them
logs on the way. Without task-based execution every node is a task of its own with no identifier in the events; the role STANDARD
behaves as OUTSIDE there (adapter.py:591-597, 631-636, 728-733). Messages, values, timestamps and the file of `log_to_file` are
left out.
-/
namespace Verif.TaskCache.Log
variable {V : Type}

/-- `CachingEventType`, adapter.py:113-131, together with the actor. FAILED_RETRIEVAL and IS_DEFAULT_PARAMETER_VALUE are never
logged. -/
inductive What where
  | getVersion | getStored | setVersion | setStored | getKey | setKey | getResult | setResult | missing | execute | failed
  | behavior | unhashable | override | input | finalVar
  deriving DecidableEq, Repr

/-- `CachingEvent`, adapter.py:134-172; `version_data` logs with the name `None` (adapter.py:805-811). -/
structure Event where
  what : What
  node : Option Name
  task : Option String
  deriving DecidableEq, Repr

/-- `_version_data`, adapter.py:779-803: an event for values without fingerprint. The task is not passed on. -/
def versionLog (env : TaskEnv V) (node : Option Name) (v : V) : List Event :=
  match env.hash v with
  | some _ => []
  | none => [⟨.unhashable, node, none⟩]

/-- The body of the loop in `pre_node_execute`, adapter.py:1172-1222. The version of a dependency is read without task. -/
def depLog (env : TaskEnv V) (f : Flow V) (col : Option Name) (d : Name) (v : V) (s : State V) : List Event :=
  match f.behaviorOf d with
  | .ignore => []
  | .disable => []
  | _ =>
    if col = some d then (env.items v).flatMap (versionLog env none)
    else
      match f.kinds d with
      | .expand => versionLog env none v
      | _ =>
        ⟨.getVersion, some d, none⟩ ::
          (match s.versions.get? d with
            | none => versionLog env none v
            | some _ => [])

/-- The loop of adapter.py:1171-1222; it stops where a version is missing. -/
def depsLog (env : TaskEnv V) (f : Flow V) (col : Option Name) (task : String) : Dict Name V → State V → List Event
  | [], _ => []
  | (d, v) :: rest, s =>
    depLog env f col d v s ++
      (match depVersion env f col task d v s with
        | (.error _, _) => []
        | (.ok _, s) => depsLog env f col task rest s)

/-- `pre_node_execute`, adapter.py:1133-1232, with `_set_cache_key`, adapter.py:582-614. -/
def preLog (env : TaskEnv V) (f : Flow V) (name : Name) (task : String) (shown : Option String) (kw : Dict Name V)
    (s : State V) : List Event :=
  match f.behaviorOf name with
  | .ignore => []
  | .disable => []
  | _ =>
    depsLog env f (collected (f.kinds name)) task kw s ++
      (match preNode env f name task kw s with
        | (.error _, _) => []
        | (.ok (), _) => [⟨.setKey, some name, shown⟩])

/-- `get_data_version`, adapter.py:680-721. -/
def getVersionLog (role : Role) (name : Name) (task : String) (shown : Option String) (key : CKey) (s : State V) : List Event :=
  ⟨.getVersion, some name, shown⟩ ::
    (match memVersion role name task s, key with
      | .ok none, some _ => [⟨.getStored, some name, shown⟩]
      | _, _ => [])

/-- `_execute_node` and recording the result, adapter.py:819-838, 1264-1300 and 1354-1383. EXECUTE_NODE is logged when the function
has returned. -/
def executeLog (env : TaskEnv V) (f : Flow V) (name : Name) (shown : Option String) (kw : Dict Name V) (withKey : Bool) :
    List Event :=
  match f.fns name kw with
  | .error _ => []
  | .ok v =>
    ⟨.execute, some name, shown⟩ ::
      ((if withKey then [⟨.getKey, some name, shown⟩] else []) ++ versionLog env (some name) v ++
        [⟨.setVersion, some name, shown⟩, ⟨.setStored, some name, shown⟩])

/-- Using the stored result, adapter.py:1307-1352: GET_RESULT is logged before the version is remembered. -/
def retrieveLog (env : TaskEnv V) (f : Flow V) (name : Name) (shown : Option String) (kw : Dict Name V) (ver : Option String)
    (s : State V) : List Event :=
  match ver with
  | none => executeLog env f name shown kw false
  | some x =>
    if x = "<unhashable>" then executeLog env f name shown kw false
    else
      match s.results.get? x with
      | none => ⟨.missing, some name, shown⟩ :: executeLog env f name shown kw false
      | some _ => [⟨.getResult, some name, shown⟩, ⟨.setVersion, some name, shown⟩]

/-- `do_node_execute`, adapter.py:1234-1385. -/
def doLog (env : TaskEnv V) (f : Flow V) (name : Name) (task : String) (shown : Option String) (kw : Dict Name V) (s : State V) :
    List Event :=
  match f.behaviorOf name with
  | .disable => match f.fns name kw with
    | .error _ => []
    | .ok _ => [⟨.execute, some name, shown⟩]
  | .recompute => executeLog env f name shown kw true
  | .ignore => executeLog env f name shown kw true
  | .default =>
    ⟨.getKey, some name, shown⟩ ::
      (match TaskCache.getKey (roleOf (f.kinds name) name task) name task s with
        | .error _ => []
        | .ok key =>
          getVersionLog (roleOf (f.kinds name) name task) name task shown key s ++
            (match getDataVersion (roleOf (f.kinds name) name task) name task key s with
              | .error _ => []
              | .ok ver => retrieveLog env f name shown kw ver s))

/-- `post_node_execute`, adapter.py:1387-1459. -/
def postLog (f : Flow V) (name : Name) (task : String) (shown : Option String) (success : Bool) (s : State V) : List Event :=
  if success then
    match f.behaviorOf name with
    | .disable => []
    | _ =>
      ⟨.getKey, some name, shown⟩ ::
        (match TaskCache.getKey (roleOf (f.kinds name) name task) name task s with
          | .error _ => []
          | .ok key =>
            getVersionLog (roleOf (f.kinds name) name task) name task shown key s ++
              (match getDataVersion (roleOf (f.kinds name) name task) name task key s with
                | .ok (some x) => if s.results.has x then [] else [⟨.setResult, some name, shown⟩]
                | _ => []))
  else [⟨.failed, some name, shown⟩]

/-- `execute_lifecycle_for_node`, graph_functions.py:255-331: the hook after the node is called unless the one before raised. -/
def nodeLog (env : TaskEnv V) (f : Flow V) (name : Name) (task : String) (shown : Option String) (kw : Dict Name V)
    (s : State V) : List Event :=
  preLog env f name task shown kw s ++
    (match preNode env f name task kw s with
      | (.error _, _) => []
      | (.ok (), s) =>
        doLog env f name task shown kw s ++
          (match doNode env f name task kw s with
            | (.error _, s) => postLog f name task shown false s
            | (.ok _, s) => postLog f name task shown true s))

/-- The events of the steps of a run; `std` if tasks are not used (`task_id` is `None` then, graph_functions.py:206-212). -/
def stepsLog (env : TaskEnv V) (f : Flow V) (std : Bool) : List (Step V) → Vals V → State V → List Event
  | [], _, _ => []
  | st :: rest, vals, s =>
    match evalArgs env vals st.args with
    | none => []
    | some kw =>
      nodeLog env f st.name st.task (if std then none else some st.task) kw s ++
        (match cachedNode env f st.name st.task kw s with
          | (.error _, _) => []
          | (.ok v, s) => stepsLog env f std rest (vals.set (st.name, st.task) v) s)

/-- An execution: the run, whether tasks are not used, the nodes of the graph, what was requested, inputs and overrides
(driver.py:162-184 and 208-252). -/
structure Job (V : Type) where
  run : Run V
  std : Bool
  nodes : List Name
  finalVars : List Name
  inputs : Dict Name V
  overrides : Dict Name V

/-- `pre_graph_execute`, adapter.py:1085-1131, with `resolve_behaviors` (one event per node, adapter.py:950-957),
`_process_input` and `_process_override`. -/
def startLog (env : TaskEnv V) (j : Job V) : List Event :=
  j.nodes.map (fun n => ⟨.behavior, some n, none⟩) ++ j.finalVars.map (fun n => ⟨.finalVar, some n, none⟩) ++
    j.inputs.flatMap (fun p => versionLog env (some p.1) p.2 ++ [⟨.input, some p.1, none⟩]) ++
    j.overrides.flatMap (fun p => versionLog env (some p.1) p.2 ++ [⟨.override, some p.1, none⟩])

/-- The events of an execution. -/
def jobLog (env : TaskEnv V) (j : Job V) (s : State V) : List Event :=
  startLog env j ++ stepsLog env j.run.flow j.std j.run.steps [] (startRun env j.run s)

/-! ### Reading the log -/

/-- Level "info", adapter.py:352-357 and 400-404. -/
def infoOnly (l : List Event) : List Event := l.filter (fun e => e.what = .getResult || e.what = .execute)

/-- The name, or the name and the task, adapter.py:359; an empty task identifier does not occur. -/
def keyOf (e : Event) : Option Name × Option String := (e.node, e.task)

/-- The `defaultdict` of adapter.py:350-361. -/
def group : List Event → Dict (Option Name × Option String) (List Event) → Dict (Option Name × Option String) (List Event)
  | [], d => d
  | e :: rest, d => group rest (d.set (keyOf e) ((d.get? (keyOf e)).getD [] ++ [e]))

/-- `logs(run_id, level)`, adapter.py:346-361 and 394-395. -/
def logsOf (info : Bool) (l : List Event) : Dict (Option Name × Option String) (List Event) :=
  group (if info then infoOnly l else l) []

/-- `logs(level)`, adapter.py:397-408: a `defaultdict` as well, so a run without events of the level has no entry. -/
def allLogs (info : Bool) (logs : Dict String (List Event)) : Dict String (List Event) :=
  logs.filterMap (fun p =>
    let l := if info then infoOnly p.2 else p.2
    if l = [] then none else some (p.1, l))

/-- `_log_event`, adapter.py:299-344: a run that was not started is a `KeyError`. -/
def logEvent (run : String) (e : Event) (logs : Dict String (List Event)) : Except UserErr (Dict String (List Event)) :=
  match logs.get? run with
  | none => .error "KeyError"
  | some l => .ok (logs.set run (l ++ [e]))

/-- What `view_run` draws: final variables, inputs, overrides, and which nodes are marked "from cache" (adapter.py:410-450). -/
structure View where
  finalVars : List Name
  inputs : List Name
  overrides : List Name
  fromCache : Name → Bool

/-- The loop of `view_run`, adapter.py:488-508. -/
def viewLoop : List ((Option Name × Option String) × List Event) → View → Except UserErr View
  | [], w => .ok w
  | ((_, some _), _) :: _, _ => .error "ValueError"
  | ((none, none), _) :: rest, w => viewLoop rest w
  | ((some n, none), es) :: rest, w =>
    let w := if es.any (fun e => e.what = .finalVar) then { w with finalVars := w.finalVars ++ [n] } else w
    if es.any (fun e => e.what = .input) then viewLoop rest { w with inputs := w.inputs ++ [n] }
    else if es.any (fun e => e.what = .override) then viewLoop rest { w with overrides := w.overrides ++ [n] }
    else viewLoop rest w

/-- `view_run`, adapter.py:454-517, up to the drawing itself. -/
def viewRun (l : List Event) : Except UserErr View :=
  let logs := logsOf false l
  viewLoop logs
    ⟨[], [], [], fun n => ((logs.get? (some n, none)).getD []).any (fun e => e.what = .getResult)⟩

end Verif.TaskCache.Log
