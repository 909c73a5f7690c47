import Verif.Model.Grouping
import Verif.Model.Driver

/-!
Task-based execution: hamilton/execution/state.py, hamilton/execution/executors.py and
`TaskBasedGraphExecutor` of hamilton/driver.py:186-252.

The nondeterminism of executors is a `Choice` per iteration of the orchestration loop.
-/
namespace Verif
variable {T V : Type}

/-- `TaskState`, state.py:12-18. -/
inductive TaskState where
  | queued
  | uninitialized
  | initialized
  | running
  | successful
  | failed
  deriving DecidableEq, Repr

/-- `is_terminal`, state.py:20-22. -/
def TaskState.isTerminal : TaskState → Bool
  | .successful => true
  | .failed => true
  | _ => false

/-- `TaskImplementation`, grouping.py:122-145 (without adapter and run id). -/
structure Task (T V : Type) extends TaskSpec T V where
  groupId : Option Name
  realizedDeps : Dict Name (List Name)
  spawningTaskId : Option Name
  dynamicInputs : Dict Name V

/-- Python `sep.join(parts)`. -/
def joinWith (sep : String) : List String → String
  | [] => ""
  | [x] => x
  | x :: xs => x ++ sep ++ joinWith sep xs

/-- `determine_task_id`, grouping.py:147-151. -/
def determineTaskId (baseId : Name) (spawning group : Option Name) : Name :=
  joinWith "." ([spawning, group, some baseId].filterMap id)

/-- `task_id`, set in `__post_init__`, grouping.py:153-155. -/
def Task.id (t : Task T V) : Name := determineTaskId t.baseId t.spawningTaskId t.groupId

/-- `_format_key`, state.py:72-75. -/
def formatKey (group spawning : Option Name) (key : Name) : Name :=
  joinWith ":" ([spawning, group, some key].filterMap id)

/-- `DictBasedResultCache.write`, state.py:77-87. -/
def cacheWrite (cache results : Dict Name V) (group spawning : Option Name) : Dict Name V :=
  results.foldl (fun c p => c.set (formatKey group spawning p.1) p.2) cache

/-- Exceptions of a task-based run. `exec`: raised while executing task `t`; `keyError`: result cache (state.py:113);
`assertion`: state.py:354-358; `notIterable`: `list(...)` of an expander's result; `noNode`: AttributeError on a task whose
purpose needs an expand/collect node it does not have; `broken`: the executor itself failed (e.g. BrokenProcessPool). -/
inductive TaskErr where
  | exec (t : Name) (e : ExecErr)
  | keyError (k : Name)
  | assertion (t : Name)
  | notIterable (t : Name)
  | noNode (t : Name)
  | broken (t : Name)
  deriving DecidableEq, Repr

/-- `DictBasedResultCache.read`, state.py:89-115. -/
def cacheRead (cache : Dict Name V) (group spawning : Option Name) (optional : Bool) :
    List Name → Except TaskErr (Dict Name V)
  | [] => .ok []
  | k :: ks =>
    match cache.get? (formatKey group spawning k) with
    | none => if optional then cacheRead cache group spawning optional ks
              else .error (.keyError (formatKey group spawning k))
    | some v => (cacheRead cache group spawning optional ks).map (fun r => Dict.merge [(k, v)] r)

/-- `ExecutionState`, state.py:118-145. `specs` is the list given to the constructor; `baseTasks` and the reverse dependency
map are derived from it.  The queue holds the tasks themselves (a task released and rejected comes back with its inputs
bound). -/
structure Sched (T V : Type) where
  specs : List (TaskSpec T V)
  pool : Dict Name (Task T V)
  states : Dict Name TaskState
  queue : List (Task T V)
  cache : Dict Name V

/-- `base_task_pool.values()`, state.py:172-179: one entry per base id, the last spec wins. -/
def Sched.baseTasks (s : Sched T V) : List (TaskSpec T V) :=
  (s.specs.foldl (fun (d : Dict Name (TaskSpec T V)) t => d.set t.baseId t) []).map (·.2)

/-- The task built by `realize_task`, state.py:209-232. `dependencies = None` gives each base dependency itself. -/
def mkTask (spec : TaskSpec T V) (spawning group : Option Name) (bind : Dict Name V) : Task T V :=
  { spec with groupId := group, spawningTaskId := spawning, dynamicInputs := bind,
              realizedDeps := spec.baseDeps.foldl (fun (m : Dict Name (List Name)) d => m.set d [d]) [] }

/-- Registration of a realized task, state.py:233-235. -/
def Sched.register (s : Sched T V) (t : Task T V) : Sched T V :=
  { s with pool := s.pool.set t.id t, states := s.states.set t.id .initialized }

/-- `_initialize_task_queue` body, state.py:187-191. -/
def Sched.initQueueOne (s : Sched T V) (t : Task T V) : Sched T V :=
  if t.baseDeps.length = 0 then
    { s with queue := s.queue ++ [t], states := s.states.set t.id .queued }
  else s

/-- `ExecutionState.__init__`, state.py:125-145. -/
def initSched (specs : List (TaskSpec T V)) (cache : Dict Name V) : Sched T V :=
  let s := specs.foldl (fun (s : Sched T V) spec =>
    if spec.baseDeps.length = 0 then s.register (mkTask spec none none []) else s)
    { specs, pool := [], states := [], queue := [], cache }
  (s.pool.map (·.2)).foldl Sched.initQueueOne s

/-- Characters of a string as one-letter strings: what Python iterates over when a string is used as a list. -/
def strChars (s : String) : List String := s.toList.map (fun c => String.ofList [c])

/-- `name_map` for one group, state.py:274-284: base id ↦ task id. -/
def nameMap (members : List (TaskSpec T V)) (spawning group : Name) : Dict Name Name :=
  members.foldl (fun (m : Dict Name Name) t => m.set t.baseId (determineTaskId t.baseId (some spawning) (some group))) []

/-- One realized dependency of a task inside a group, state.py:287-290: a dependency on another task of the
group is `name_map[dependency]`, a *string* (not a list of strings), which is later iterated character by character. -/
def memberDep (nm : Dict Name Name) (d : Name) : List Name :=
  match nm.get? d with
  | some i => strChars i
  | none => [d]

/-- The realized dependencies of a task inside a group, state.py:286-291. -/
def memberDeps (nm : Dict Name Name) (baseDeps : List Name) : Dict Name (List Name) :=
  baseDeps.foldl (fun (m : Dict Name (List Name)) d => m.set d (memberDep nm d)) []

/-- The tasks for one element of the expansion, state.py:267-294. -/
def groupTasks (members : List (TaskSpec T V)) (spawning group input : Name) (item : V) : List (Task T V) :=
  members.map (fun m =>
    { mkTask m (some spawning) (some group) [(input, item)] with
      realizedDeps := memberDeps (nameMap members spawning group) m.baseDeps })

/-- The realized dependencies of a collector, state.py:307-315. -/
def gatherDeps (memberIds : List Name) (maps : List (Dict Name Name)) (baseDeps : List Name) :
    Dict Name (List Name) :=
  baseDeps.foldl (fun (m : Dict Name (List Name)) d =>
    m.set d (if memberIds.contains d then maps.filterMap (fun nm => nm.get? d) else [d])) []

/-- `realize_parameterized_group`, state.py:238-316. Groups are named `str(i)` (state.py:374-376). -/
def realizeGroup (s : Sched T V) (spawning input : Name) (items : List V) : Sched T V :=
  let members := s.baseTasks.filter (fun t => t.spawning == some spawning && t.purpose != .expand && t.purpose != .gather)
  let named := items.zipIdx.map (fun p => (toString p.2, p.1))
  let s := (named.flatMap (fun p => groupTasks members spawning p.1 input p.2)).foldl Sched.register s
  let maps := named.map (fun p => nameMap members spawning p.1)
  let collectors := s.baseTasks.filter (fun t => t.purpose == .gather && t.spawning == some spawning)
  (collectors.map (fun c =>
      { mkTask c none none [] with
        realizedDeps := gatherDeps (members.map (·.baseId)) maps c.baseDeps })).foldl Sched.register s

/-- `write_task_results`, state.py:318-326. -/
def writeTaskResults (ops : TaskOps T V) (cache : Dict Name V) (t : Task T V) (results : Dict Name V) :
    Except TaskErr (Dict Name V) :=
  if t.purpose = .expand then
    match expanderNode t.nodes with
    | none => .error (.noNode t.id)
    | some e =>
      match results.get? e.name with
      | none => .error (.keyError e.name)
      | some v =>
        match ops.toList v with
        | none => .error (.notIterable t.id)
        | some l => .ok (cacheWrite (cacheWrite cache [(e.name, ops.ofList l)] none none)
            (results.del e.name) t.groupId t.spawningTaskId)
  else .ok (cacheWrite cache results t.groupId t.spawningTaskId)

/-- Reading `task_states[k]` of a `defaultdict` inserts the default, state.py:137. -/
def touch (st : Dict Name TaskState) (k : Name) : Dict Name TaskState :=
  if st.has k then st else st.set k .uninitialized

/-- The inner loops of the scan, state.py:399-403: `(should_launch, task_states)`. -/
def scanDep (p : Bool × Dict Name TaskState) (dep : Name) : Bool × Dict Name TaskState :=
  (p.1 && ((touch p.2 dep).get? dep == some .successful), touch p.2 dep)

/-- Scan of one task of the pool, state.py:396-405: `(tasks_to_enqueue, task_states)`. -/
def scanTask (p : List (Task T V) × Dict Name TaskState) (t : Task T V) : List (Task T V) × Dict Name TaskState :=
  let st := touch p.2 t.id
  if st.get? t.id = some .initialized then
    let r := (t.realizedDeps.flatMap (·.2)).foldl scanDep (true, st)
    (if r.1 then p.1 ++ [t] else p.1, r.2)
  else (p.1, st)

/-- `state.py:393-415`: find the tasks that can start and enqueue them. -/
def enqueueReady (s : Sched T V) : Sched T V :=
  let r := (s.pool.map (·.2)).foldl scanTask ([], s.states)
  r.1.foldl (fun (s : Sched T V) t =>
    { s with queue := s.queue ++ [t], states := s.states.set t.id .queued }) { s with states := r.2 }

/-- state.py:377-391: realize the tasks that depend on a completed task that is not an expander. -/
def realizeDependents (s : Sched T V) (completed : Name) : Sched T V :=
  (s.specs.filter (fun t => t.baseDeps.contains completed)).foldl (fun (s : Sched T V) c =>
    if (c.spawning.isNone || c.purpose == .expand) && !s.pool.has c.baseId then
      s.register (mkTask c none none [])
    else s) s

/-- `update_task_state`, state.py:328-423. -/
def updateTaskState (ops : TaskOps T V) (s : Sched T V) (id : Name) (new : TaskState) (results : Dict Name V) :
    Except TaskErr (Sched T V) :=
  let s := { s with states := s.states.set id new }
  if !new.isTerminal then .ok s
  else if !s.queue.all (fun t => s.states.get? t.id == some .queued) then .error (.assertion id)
  else
    match s.pool.get? id with
    | none => .error (.keyError id)
    | some t =>
      if new = .successful then
        match writeTaskResults ops s.cache t results with
        | .error e => .error e
        | .ok cache =>
          let s := { s with cache := cache }
          if t.purpose = .expand then
            match expanderNode t.nodes with
            | none => .error (.noNode id)
            | some e =>
              match s.cache.get? (formatKey none none e.name) with
              | none => .error (.keyError e.name)
              | some v =>
                match ops.toList v with
                | none => .error (.notIterable id)
                | some items => .ok (enqueueReady (realizeGroup s t.id e.name items))
          else .ok (enqueueReady (realizeDependents s t.baseId))
      else .ok s

/-- `get_graph_state`, state.py:433-451 (`is_initialized` is always true after construction). -/
def graphState (s : Sched T V) : TaskState :=
  if s.states.all (fun p => p.2 == .initialized) then .initialized
  else if s.states.all (fun p => p.2 == .successful) then .successful
  else if s.states.any (fun p => p.2 == .failed) then .failed
  else .running

/-- The result of `arg` in the namespace of task `d`, state.py:470-478. -/
def readGathered (s : Sched T V) (arg d : Name) : Except TaskErr V :=
  match s.pool.get? d with
  | none => .error (.keyError d)
  | some t =>
    match s.cache.get? (formatKey t.groupId t.spawningTaskId arg) with
    | none => .error (.keyError (formatKey t.groupId t.spawningTaskId arg))
    | some v => .ok v

/-- Loop body of `bind_task` for a collector, state.py:462-479: state is `(values collected, remaining realized
dependencies)`. -/
def bindGatherDep (s : Sched T V) (arg : Name) (p : List V × Dict Name (List Name)) (dep : Name × List Name) :
    Except TaskErr (List V × Dict Name (List Name)) :=
  match dep.2 with
  | [] => .ok p
  | d0 :: _ =>
    match s.pool.get? d0 with
    | none => .error (.keyError d0)
    | some t0 =>
      if (t0.nodes.map (·.name)).contains arg then
        (dep.2.mapM (readGathered s arg)).map (fun vs => (p.1 ++ vs, p.2.del dep.1))
      else .ok p

/-- The `dynamic_inputs` and remaining dependencies before the cache is read, state.py:455-479. -/
def bindStart (ops : TaskOps T V) (s : Sched T V) (t : Task T V) :
    Except TaskErr (Dict Name V × Dict Name (List Name)) :=
  if t.purpose = .gather then
    match collectorNode t.nodes with
    | none => .error (.noNode t.id)
    | some c =>
      match collectDependency ops c with
      | none => .error (.noNode t.id)
      | some arg =>
        (t.realizedDeps.foldlM (bindGatherDep s arg) ([], t.realizedDeps)).map
          (fun p => ([(arg, ops.ofList p.1)], p.2))
  else .ok (t.overrides, t.realizedDeps)

/-- `bind_task`, state.py:453-490. `del task.realized_dependencies[...]` acts on the dictionary shared by the task in
the pool; it is only read again through the task returned here (if it is rejected), so only that copy is updated. -/
def bindTask (ops : TaskOps T V) (g : Graph T V) (s : Sched T V) (t : Task T V) : Except TaskErr (Task T V) :=
  let iv := getInputVars g t.toTaskSpec
  match bindStart ops s t with
  | .error e => .error e
  | .ok (dyn, deps) =>
    match cacheRead s.cache none none false (iv.required.filter (fun k => !dyn.has k && !t.overrides.has k)) with
    | .error e => .error e
    | .ok r1 =>
      match cacheRead s.cache none none true iv.optional with
      | .error e => .error e
      | .ok r2 => .ok { t with realizedDeps := deps,
                               dynamicInputs := Dict.merge (Dict.merge (Dict.merge dyn r1) r2) t.dynamicInputs }

/-- `_modify_callable`/`new_callable`, executors.py:62-77 and 98-101: the result of an expand node becomes a list.  (The
code wraps the callables of the nodes of each executed task; here all expand nodes of the graph are wrapped beforehand:
a callable is only ever called by the task of its node.) -/
def listifyNode (ops : TaskOps T V) (n : Node T V) : Node T V :=
  if n.kind = .expand then
    { n with fn := fun kw =>
        match n.fn kw with
        | .error e => .error e
        | .ok v => match ops.toList v with
          | some l => .ok (ops.ofList l)
          | none => .error "TypeError" }
  else n

/-- All nodes of a graph with `listifyNode` applied. -/
def listifyGraph (ops : TaskOps T V) (g : Graph T V) : Graph T V := g.map (fun p => (p.1, listifyNode ops p.2))

/-- `base_execute_task`, executors.py:80-151, without adapters. `g` has the callables already modified. -/
def executeTask (g : Graph T V) (t : Task T V) : Except TaskErr (Dict Name V) :=
  match executeSubdag g t.nodes t.dynamicInputs (Dict.merge t.dynamicInputs t.overrides) with
  | .err e _ => .error (.exec t.id e)
  | .ok s => .ok (s.computed.filter (fun p => t.outputs.contains p.1 || t.overrides.has p.1))

/-- `TaskFuture`, executors.py:16-23: of the synchronous executor (executors.py:154-166, result known at submission) or of
a pool (executors.py:185-209, the task runs on its own). -/
inductive Future (T V : Type) where
  | now (result : Dict Name V)
  | later (t : Task T V)

/-- What one polling of a pool future (`get_state` then `get_result`, executors.py:191-209, called at 396-397) observes:
not done; done before `get_state`; done between the two calls; the executor broke; or (an executor outside the
repository) state FAILED without raising. -/
inductive Obs where
  | pending
  | finished
  | late
  | broken
  | silentFail
  deriving DecidableEq, Repr

/-- The decisions of the environment in one iteration of the loop: the answer of `can_submit_task` and what polling
observes of each future. -/
structure Choice where
  canSubmit : Bool
  obs : Name → Obs

/-- Ghost trace of a run: a task is handed to an executor; a task id is reported successful with these results. -/
inductive Event (T V : Type) where
  | submit (t : Task T V)
  | done (id : Name) (results : Dict Name V)

/-- Variables of `run_graph_to_completion`, executors.py:359-404; `trace` is a ghost, oldest event first. -/
structure Loop (T V : Type) where
  sched : Sched T V
  futures : Dict Name (Future T V)
  trace : List (Event T V)

/-- `DefaultExecutionManager.get_executor_for_task`, executors.py:343-356, as the question whether the executor is the
synchronous one: `sync` decides per purpose (any pair of local/remote executors). -/
structure Executors where
  sync : Purpose → Bool

/-- Submission of a task, executors.py:376-390 with 154-166 (synchronous) and 244-256 (pool). -/
def submitTask (g : Graph T V) (ex : Executors) (l : Loop T V) (t : Task T V) : Out (Loop T V) TaskErr :=
  if ex.sync t.purpose then
    match executeTask g t with
    | .error e => .err e { l with trace := l.trace ++ [.submit t] }
    | .ok r => .ok { l with futures := l.futures.set t.id (.now r), trace := l.trace ++ [.submit t] }
  else .ok { l with futures := l.futures.set t.id (.later t), trace := l.trace ++ [.submit t] }

/-- First part of an iteration, executors.py:374-393 with `release_next_task`/`reject_task`, state.py:492-518. A synchronous
executor can always take a task (executors.py:168-173). -/
def releaseAndSubmit (ops : TaskOps T V) (g : Graph T V) (ex : Executors) (c : Choice) (l : Loop T V) :
    Out (Loop T V) TaskErr :=
  match l.sched.queue with
  | [] => .ok l
  | t :: rest =>
    match bindTask ops g l.sched t with
    | .error e => .err e l
    | .ok t' =>
      if ex.sync t'.purpose || c.canSubmit then
        submitTask g ex { l with sched := { l.sched with queue := rest } } t'
      else .ok { l with sched := { l.sched with queue := t' :: rest } }

/-- A poll that reports success: `update_task_state`, then the future is removed, executors.py:398-400. -/
def finishTask (ops : TaskOps T V) (l : Loop T V) (name : Name) (r : Dict Name V) : Out (Loop T V) TaskErr :=
  match updateTaskState ops l.sched name .successful r with
  | .error e => .err e l
  | .ok s => .ok { sched := s, futures := l.futures.del name, trace := l.trace ++ [.done name r] }

/-- A poll that reports `st` (running or failed), executors.py:398-400. -/
def reportState (ops : TaskOps T V) (l : Loop T V) (name : Name) (st : TaskState) : Out (Loop T V) TaskErr :=
  match updateTaskState ops l.sched name st [] with
  | .error e => .err e l
  | .ok s => .ok { l with sched := s, futures := if st.isTerminal then l.futures.del name else l.futures }

/-- Polling one future, executors.py:395-400. -/
def pollOne (ops : TaskOps T V) (g : Graph T V) (c : Choice) (p : Name × Future T V) (l : Loop T V) :
    Out (Loop T V) TaskErr :=
  match p.2 with
  | .now r => finishTask ops l p.1 r
  | .later t =>
    match c.obs p.1 with
    | .pending => reportState ops l p.1 .running
    | .finished =>
      match executeTask g t with
      | .error e => .err e l
      | .ok r => finishTask ops l p.1 r
    | .late =>
      match executeTask g t with
      | .error e => .err e l
      | .ok _ => reportState ops l p.1 .running
    | .broken => .err (.broken p.1) l
    | .silentFail => reportState ops l p.1 .failed

/-- One iteration of the loop, executors.py:372-400. -/
def loopStep (ops : TaskOps T V) (g : Graph T V) (ex : Executors) (c : Choice) (l : Loop T V) :
    Out (Loop T V) TaskErr :=
  (releaseAndSubmit ops g ex c l).bind fun l => forEach (pollOne ops g c) l.futures l

/-- `run_graph_to_completion`, executors.py:359-404, under a finite schedule; the result is the state reached when the
graph is in a terminal state or the schedule is used up. -/
def runLoop (ops : TaskOps T V) (g : Graph T V) (ex : Executors) : List Choice → Loop T V → Out (Loop T V) TaskErr
  | [], l => .ok l
  | c :: cs, l =>
    if (graphState l.sched).isTerminal then .ok l
    else (loopStep ops g ex c l).bind (runLoop ops g ex cs)

/-- The loop before its first iteration, executors.py:370-371. -/
def initLoop (specs : List (TaskSpec T V)) (cache : Dict Name V) : Loop T V :=
  { sched := initSched specs cache, futures := [], trace := [] }

/-- Errors of a task-based execute call before and after the loop. `running`: the schedule ended first. -/
inductive TaskRunErr where
  | clash (names : List Name)
  | query (e : QueryErr)
  | grouping
  | plan
  | task (e : TaskErr)
  | running
  deriving DecidableEq, Repr

/-- `TaskBasedGraphExecutor.execute`, driver.py:207-252, for a grouping strategy `group` (`none`: it raised) and a schedule.
The result cache is prehydrated with `{**overrides, **inputs}` (driver.py:236). -/
def taskBasedExecute (ops : TaskOps T V) (ex : Executors) (group : Graph T V → List (Node T V) → Option (List (NodeGroup T V)))
    (fg : FnGraph T V) (finalVars : List Name) (overrides inputs : Dict Name V) (sched : List Choice) :
    Except TaskRunErr (Dict Name V) :=
  match combineConfigAndInputs fg.config inputs with
  | .error ks => .error (.clash ks)
  | .ok all =>
    match getUpstreamNodes fg finalVars (some all) (some overrides) with
    | .err e _ => .error (.query e)
    | .ok vis =>
      match group (listifyGraph ops fg.nodes) (vis.nodes.filterMap (fun k => (listifyGraph ops fg.nodes).get? k)) with
      | none => .error .grouping
      | some groups =>
        match createTaskPlan groups finalVars overrides with
        | none => .error .plan
        | some specs =>
          match runLoop ops (listifyGraph ops fg.nodes) ex sched (initLoop specs (Dict.merge overrides all)) with
          | .err e _ => .error (.task e)
          | .ok l =>
            if (graphState l.sched).isTerminal then
              match cacheRead l.sched.cache none none false finalVars with
              | .error e => .error (.task e)
              | .ok r => .ok r
            else .error .running

end Verif
