import Verif.Model.Driver

/-!
The asynchronous driver: `hamilton/async_driver.py:19-36` (`await_dict_of_tasks`, `process_value`), `64-155`
(`AsyncGraphAdapter.do_node_execute`) and `274-340` (`AsyncDriver.raw_execute`).

An execution has two phases.  First the graph is traversed as in the default driver, but running a node only creates a task
(`asyncio.create_task`); then the event loop runs the tasks in an arbitrary order.  The second phase is a transition system: a
`AChoice` says which task goes on.  Lifecycle hooks, cancellation and awaitables passed as inputs are not modelled.
-/
namespace Verif
variable {T V : Type}

/-- What `computed` holds during the first phase: inputs and overrides are plain values; the result of a function node is the task
created at async_driver.py:153-155.  A node is run once per execution (C02), so the task is identified by the node's name. -/
inductive AVal (V : Type) where
  | raw (v : V)
  | task (k : Name)
  deriving DecidableEq, Repr

/-- The node as `execute_subdag` runs it with the `AsyncGraphAdapter`: `do_node_execute` returns a task at once,
async_driver.py:64-155. -/
def liftNode (n : Node T V) : Node T (AVal V) :=
  { name := n.name, typ := n.typ, kind := n.kind, inputTypes := n.inputTypes, dependencies := n.dependencies,
    dependedOnBy := n.dependedOnBy, fn := fun _ => .ok (.task n.name) }

/-- The graph as the `AsyncGraphAdapter` runs it. -/
def liftGraph (g : Graph T V) : Graph T (AVal V) := g.map (fun p => (p.1, liftNode p.2))

/-- Inputs and overrides are not awaitables (simplification; `process_value`, async_driver.py:28-36, would await them). -/
def liftVals (d : Dict Name V) : Dict Name (AVal V) := d.map (fun p => (p.1, .raw p.2))

/-- After the first phase: the tasks created with their keyword arguments, and what is awaited for each requested name
(`task_dict`, async_driver.py:317-320). -/
structure AsyncProg (V : Type) where
  tasks : Dict Name (Dict Name (AVal V))
  final : Dict Name (AVal V)

/-- `task_dict`, async_driver.py:317-320 (names without a result cannot occur, see `asyncStart`). -/
def awaited (computed : Dict Name (AVal V)) (finalVars : List Name) : Dict Name (AVal V) :=
  finalVars.foldl (fun d k => match computed.get? k with
    | some a => d.set k a
    | none => d) []

/-- The first phase of `raw_execute`, async_driver.py:292-320.  `get_upstream_nodes` returns a set; `order` is the order in which
Python iterates over it.  All the upstream nodes are requested from `execute_subdag`, and `memoized_computation[key]` raises a
`KeyError` for a requested name without a result. -/
def asyncStart (fg : FnGraph T V) (order : List Name → List Name) (finalVars : List Name) (inputs overrides : Option (Dict Name V)) :
    Except DriverErr (AsyncProg V) :=
  match getUpstreamNodes fg finalVars inputs overrides with
  | .err e _ => .error (.query e)
  | .ok plan =>
    match combineConfigAndInputs fg.config (inputs.getD []) with
    | .error ks => .error (.clash ks)
    | .ok all =>
      match executeSubdag (liftGraph fg.nodes) ((order plan.nodes).filterMap (liftGraph fg.nodes).get?) (liftVals all)
          (liftVals (overrides.getD [])) with
      | .err e _ => .error (.exec e)
      | .ok s =>
        match finalVars.find? (fun k => !s.computed.has k) with
        | some k => .error (.exec (.keyError k))
        | none => .ok ⟨s.calls, awaited s.computed finalVars⟩

/-- State of a task: waiting for its arguments (async_driver.py:90-91), in its function (async_driver.py:119-121), or finished. -/
inductive TaskSt (V : Type) where
  | waiting
  | running (kw : Dict Name V)
  | done (r : Except UserErr V)

/-- State of the event loop.  `main` is the outcome of `raw_execute`; `calls` is a ghost trace of the function calls. -/
structure AState (V : Type) where
  st : Dict Name (TaskSt V)
  main : Option (Except UserErr (Dict Name V))
  calls : List (Name × Dict Name V)

/-- All tasks are created and none has run. -/
def AState.init (p : AsyncProg V) : AState V := ⟨p.tasks.map (fun t => (t.1, .waiting)), none, []⟩

/-- Insertion by key. -/
def insertKw (p : Name × V) : Dict Name V → Dict Name V
  | [] => [p]
  | q :: r => if p.1 ≤ q.1 then p :: q :: r else q :: insertKw p r

/-- `keys = sorted(task_dict.keys())` and `dict(zip(keys, …))`, async_driver.py:21-24: dictionaries come back sorted by key.
Keys of a dictionary are distinct, so every sorting algorithm gives the same result. -/
def sortKw (d : Dict Name V) : Dict Name V := d.foldr insertKw []

/-- The values once every awaitable in a dictionary has finished without an exception (`asyncio.gather`, async_driver.py:23). -/
def awaitAll (st : Dict Name (TaskSt V)) : Dict Name (AVal V) → Option (Dict Name V)
  | [] => some []
  | (k, .raw v) :: rest => (awaitAll st rest).map ((k, v) :: ·)
  | (k, .task t) :: rest =>
    match st.get? t with
    | some (.done (.ok v)) => (awaitAll st rest).map ((k, v) :: ·)
    | _ => none

/-- The exception with which awaiting one entry of a dictionary ends, if it has. -/
def awaitErr (st : Dict Name (TaskSt V)) (kw : Dict Name (AVal V)) (k : Name) : Option UserErr :=
  match kw.get? k with
  | some (.task t) => match st.get? t with
    | some (.done (.error e)) => some e
    | _ => none
  | _ => none

/-- What the event loop does next: task `k` gets all its arguments and calls its function; task `k` fails because awaiting its
argument `d` raised (`gather` raises the first exception); the function of task `k` returns or raises; the main coroutine gets all
results; the main coroutine fails because of `d`. -/
inductive AChoice where
  | start (k : Name)
  | fail (k d : Name)
  | finish (k : Name)
  | mainOk
  | mainErr (d : Name)
  deriving DecidableEq, Repr

/-- One step of the event loop (`none`: the choice is not possible now).  `new_fn`, async_driver.py:89-151;
`raw_execute`, async_driver.py:321. -/
def astep (g : Graph T V) (p : AsyncProg V) (s : AState V) : AChoice → Option (AState V)
  | .start k =>
    match p.tasks.get? k, s.st.get? k with
    | some kw, some .waiting =>
      (awaitAll s.st kw).map fun args =>
        { s with st := s.st.set k (.running (sortKw args)), calls := s.calls ++ [(k, sortKw args)] }
    | _, _ => none
  | .fail k d =>
    match p.tasks.get? k, s.st.get? k with
    | some kw, some .waiting => (awaitErr s.st kw d).map fun e => { s with st := s.st.set k (.done (.error e)) }
    | _, _ => none
  | .finish k =>
    match s.st.get? k, g.get? k with
    | some (.running args), some n => some { s with st := s.st.set k (.done (n.fn args)) }
    | _, _ => none
  | .mainOk =>
    match s.main with
    | none => (awaitAll s.st p.final).map fun out => { s with main := some (.ok (sortKw out)) }
    | some _ => none
  | .mainErr d =>
    match s.main with
    | none => (awaitErr s.st p.final d).map fun e => { s with main := some (.error e) }
    | some _ => none

/-- A run of the event loop. -/
def arun (g : Graph T V) (p : AsyncProg V) : List AChoice → AState V → Option (AState V)
  | [], s => some s
  | c :: cs, s => (astep g p s c).bind (arun g p cs)

end Verif
