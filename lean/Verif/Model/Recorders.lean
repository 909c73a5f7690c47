import Verif.Model.Node

/-!
Adapters that record runs outside of the program: the MLflow tracker (`hamilton/plugins/h_mlflow.py`), the experiment tracker
(`hamilton/plugins/h_experiments`), OpenLineage events (`hamilton/plugins/h_openlineage.py`) and Slack messages
(`hamilton/plugins/h_slack.py`).  The libraries are modelled by what they are told.
-/
namespace Verif.Recorders

/-! ### Runs -/

/-- Exceptions: those of Python that occur here, those of MLflow and of the database of `dbm`, and those of the functions of the
user. -/
inductive Err where
  | type
  | attribute
  | key
  | index
  | unbound
  | mlflow
  | db
  | user (id : Nat)
  deriving DecidableEq, Repr

/-- The dict that a data saver returns, as far as it is looked at: `path`, `file_metadata` (its path), `sql_metadata` (table name and
query), `dataframe_metadata` (columns with their types; `none` if both are `None`, io/utils.py:76-86), `registered_model` (name and
version), and whether it has other keys. -/
structure Meta where
  path : Option String := none
  file : Option String := none
  sql : Option (Option String × Option String) := none
  frame : Option (Option (List (String × String))) := none
  registered : Option (Name × String) := none
  others : Bool := false
  deriving DecidableEq, Repr

/-- The dict is empty. -/
def Meta.isEmpty (m : Meta) : Bool :=
  m.path.isNone && m.file.isNone && m.sql.isNone && m.frame.isNone && m.registered.isNone && !m.others

/-- Values: `None`, numbers, dicts of metadata, a pair of data and metadata (what loaders return), anything else. -/
inductive Val where
  | none
  | number (n : Int)
  | info (m : Meta)
  | pair (id : Nat) (m : Meta)
  | other (id : Nat)
  deriving DecidableEq, Repr

/-- Return types of nodes, as far as they are told apart (h_mlflow.py:273-306): `float` and `int`, the types of figures, and all
others, among them `str` and `dict`. -/
inductive Ty where
  | float
  | int
  | figure
  | str
  | dict
  | other
  deriving DecidableEq, Repr

/-- A function of the user: its name, and the defaults of its parameters (`none`: no default). -/
structure Fn where
  name : Name
  params : Dict Name (Option Val)
  deriving DecidableEq, Repr

/-- A node as the hooks see it (`HamiltonNode`, graph_types.py:90-103, and the tags of data savers and loaders,
function_modifiers/adapters.py:229-235, 575-579).  `saver` is the sink, `loader` whether there is metadata. -/
structure GNode where
  name : Name
  external : Bool := false
  origins : List Fn := []
  doc : String := ""
  required : List Name := []
  type : Ty := .other
  saver : Option String := none
  saverClass : String := ""
  loader : Option Bool := none
  module : Option Name := none
  tags : List (Name × String) := []
  deriving DecidableEq, Repr

/-- The execution of a node: its arguments, and its result or exception. -/
structure Step where
  node : GNode
  kwargs : Dict Name Val
  outcome : Except Err Val

/-- An execution of the driver: what the hooks are told about it, and the nodes that would be executed, in order, if nothing failed;
`build` is the exception with which the result is built, if any. -/
structure Run where
  id : Name
  finalVars : List Name
  inputs : Option (Dict Name Val)
  overrides : Option (Dict Name Val)
  graph : List GNode
  version : String
  steps : List Step
  build : Option Err := none

/-- The result that the hook after a node is given: `None` if the node failed (execution/graph_functions.py:269-325). -/
def Step.result (t : Step) : Val :=
  match t.outcome with
  | .ok v => v
  | .error _ => .none

/-- The exception that the hook after a node is given. -/
def Step.error (t : Step) : Option Err :=
  match t.outcome with
  | .ok _ => none
  | .error e => some e

/-- An adapter with its state and the world it writes to.  Each hook returns the exception it raises, if any; `during` is not part of
the adapter but notes in which surroundings a node was executed. -/
structure Recorder (S : Type) where
  start : S → Run → S × Option Err
  before : S → Step → S × Option Err
  during : S → Step → S
  after : S → Name → Step → S × Option Err
  finish : S → Run → Option Err → S × Option Err

/-- `execute_lifecycle_for_node`, execution/graph_functions.py:255-331, for one node after the other: a hook that raises, and a node
that fails, end the run; the hook after a failing node is called all the same, and its exception replaces that of the node. -/
def driveSteps {S : Type} (r : Recorder S) (run : Name) : S → List Step → S × Option Err
  | s, [] => (s, none)
  | s, t :: rest =>
    match r.before s t with
    | (s, some e) => (s, some e)
    | (s, none) =>
      match r.after (r.during s t) run t with
      | (s, some e) => (s, some e)
      | (s, none) =>
        match t.error with
        | some e => (s, some e)
        | none => driveSteps r run s rest

/-- `Driver.execute`, driver.py:585-652, as far as the hooks are concerned: the hook at the end is called whatever happened, except
when the hook at the beginning raised. -/
def drive {S : Type} (r : Recorder S) (s : S) (run : Run) : S × Option Err :=
  match r.start s run with
  | (s, some e) => (s, some e)
  | (s, none) =>
    match driveSteps r run.id s run.steps with
    | (s, err) =>
      match r.finish s run (err.or run.build) with
      | (s, some e) => (s, some e)
      | (s, none) => (s, err.or run.build)

/-- Several executions one after the other, with the exceptions they end with. -/
def driveAll {S : Type} (r : Recorder S) : S → List Run → S × List (Option Err)
  | s, [] => (s, [])
  | s, run :: rest =>
    match drive r s run with
    | (s, e) =>
      match driveAll r s rest with
      | (s, es) => (s, e :: es)

/-! ### MLflow -/

/-- What is logged to a run of MLflow. -/
inductive Logged where
  | metric (key : Name) (value : Int)
  | artifact (path : String) (folder : Name)
  | figure (value : Val) (path : String)
  | dict (value : Val) (path : String)
  deriving DecidableEq, Repr

/-- A run on the MLflow server: the Hamilton run and version in its tags, its parameters, what was logged, and its status once it is
over. -/
structure MlRun where
  hamiltonRun : Name
  codeVersion : String
  params : List (Name × Val) := []
  log : List Logged := []
  finished : Option Bool := none
  deriving DecidableEq, Repr

/-- What is written to the registry of models about a version: description, node, function and tags. -/
structure ModelNote where
  model : Name
  version : String
  doc : String
  node : Name
  function : Name
  tags : List (Name × String)
  deriving DecidableEq, Repr

/-- The MLflow server (its runs, known by their position, and the notes on models) and the active run of the process. -/
structure Server where
  runs : List MlRun := []
  notes : List ModelNote := []
  active : Option Nat := none
  deriving DecidableEq, Repr

/-- `MLFlowTracker`, h_mlflow.py:58-124.  `given` is the argument `run_id`; `choose` is the choice that `set.pop` makes.  Experiments
and descriptions are left out. -/
structure Tracker where
  config : Dict Name Val
  given : Option Nat := none
  choose : List Name → Name
  run : Nat := 0
  graph : List GNode := []
  finalVars : List Name := []
  server : Server := {}

/-- A change of the run on the server that the tracker writes to. -/
def Tracker.onRun (k : Tracker) (f : MlRun → MlRun) : Tracker :=
  { k with server := { k.server with runs := k.server.runs.modify k.run f } }

/-- A client call that logs something to the run. -/
def Tracker.write (k : Tracker) (x : Logged) : Tracker := k.onRun fun r => { r with log := r.log ++ [x] }

/-- `client.log_param`, h_mlflow.py:167-169: a parameter of a run that has a value cannot be given another. -/
def logParams : List (Name × Val) → List (Name × Val) → List (Name × Val) × Option Err
  | ps, [] => (ps, none)
  | ps, (k, v) :: rest =>
    match Dict.get? ps k with
    | none => logParams (ps ++ [(k, v)]) rest
    | some w => if w = v then logParams ps rest else (ps, some .mlflow)

/-- `run_before_graph_execution`, h_mlflow.py:126-171: the run is created and becomes the active one (`mlflow.start_run` raises if
there is an active run), then configuration and inputs are logged; `None.items()` is an AttributeError. The configuration and the
graph, which are logged as files, are left out. -/
def Tracker.start (k : Tracker) (r : Run) : Tracker × Option Err :=
  let created : Tracker :=
    { k with
      run := k.server.runs.length
      server := { k.server with runs := k.server.runs ++ [{ hamiltonRun := r.id, codeVersion := r.version }] } }
  match k.server.active with
  | some _ => (created, some .mlflow)
  | none =>
    let started : Tracker :=
      { created with graph := r.graph, server := { created.server with active := some created.run } }
    match r.inputs with
    | none => (started.onRun fun m => { m with params := (logParams [] k.config).1 }, some .attribute)
    | some ins =>
      match logParams [] (k.config ++ ins) with
      | (ps, some e) => (started.onRun fun m => { m with params := ps }, some e)
      | (ps, none) => ({ started with finalVars := r.finalVars }.onRun fun m => { m with params := ps }, none)

/-- `get_path_from_metadata`, h_mlflow.py:36-44, and the same in h_experiments/hook.py:166-169. -/
def pathOf (m : Meta) : Option String :=
  match m.path with
  | some p => some p
  | none => m.file

/-- `graph[name]`, graph_types.py:224-235. -/
def find (g : List GNode) (n : Name) : Option GNode := g.find? fun x => x.name == n

/-- `self.graph[node_name].required_dependencies.pop()`, h_mlflow.py:198-200, 242-243: the chosen dependency is removed from the node. -/
def Tracker.pop (k : Tracker) (n : Name) : Except Err (Name × Tracker) :=
  match find k.graph n with
  | none => .error .key
  | some x =>
    if x.required = [] then .error .key
    else .ok (k.choose x.required,
      { k with graph := k.graph.map fun y =>
          if y.name == n then { y with required := y.required.filter fun d => d != k.choose x.required } else y })

/-- `part in text` for strings. -/
def hasPart (part : List Char) : List Char → Bool
  | [] => part.isEmpty
  | c :: cs => part.isPrefixOf (c :: cs) || hasPart part cs

/-- `"hamilton." in k`, h_mlflow.py:232: the tag belongs to Hamilton. -/
def isInternal (k : Name) : Bool := hasPart "hamilton.".toList k.toList

/-- h_mlflow.py:190-235: the result of a saver of MLflow. Simplified: the calls that write to the registered model and to its version
are one note. -/
def Tracker.afterModel (k : Tracker) (t : Step) : Tracker × Option Err :=
  match t.result with
  | .info m =>
    match m.registered with
    | none => (k, none)
    | some (model, version) =>
      match k.pop t.node.name with
      | .error e => (k, some e)
      | .ok (d, k) =>
        match find k.graph d with
        | none => (k, some .key)
        | some x =>
          match x.origins with
          | [] => (k, some .index)
          | f :: _ =>
            ({ k with server := { k.server with notes := k.server.notes ++
                [{ model := model, version := version, doc := x.doc, node := x.name, function := f.name,
                   tags := x.tags.filter fun p => !isInternal p.1 }] } }, none)
  | _ => (k, some .attribute)

/-- h_mlflow.py:241-253: the result of a saver of figures. -/
def Tracker.afterFigure (k : Tracker) (t : Step) : Tracker × Option Err :=
  match k.pop t.node.name with
  | .error e => (k, some e)
  | .ok (d, k) =>
    match find k.graph d with
    | none => (k, some .key)
    | some x =>
      match t.kwargs.get? x.name with
      | none => (k, some .key)
      | some fig =>
        match t.result with
        | .info m =>
          match pathOf m with
          | some p => (if p = "" then k else k.write (.figure fig p), none)
          | none => (k, none)
        | _ => (k, some .type)

/-- h_mlflow.py:255-264: the result of any other saver. Results that are no dicts are taken not to know `in`, like `None`. -/
def Tracker.afterSaver (k : Tracker) (t : Step) : Tracker × Option Err :=
  match t.result with
  | .info m =>
    match pathOf m with
    | some p => (if p = "" then k else k.write (.artifact p t.node.name), none)
    | none => (k, none)
  | _ => (k, some .type)

/-- h_mlflow.py:267-306: a final variable.  `isinstance(node_return_type, str)` and `isinstance(node_return_type, dict)` are false for
every type, so `str` and `dict` go the way of all others. -/
def Tracker.afterFinal (k : Tracker) (t : Step) : Tracker × Option Err :=
  match t.node.type with
  | .float | .int =>
    match t.result with
    | .number n => (k.write (.metric t.node.name n), none)
    | _ => (k, some .type)
  | .figure => (k.write (.figure t.result (t.node.name ++ ".png")), none)
  | _ => (k.write (.dict t.result (t.node.name ++ ".pickle")), none)

/-- `run_after_node_execution`, h_mlflow.py:174-306. -/
def Tracker.after (k : Tracker) (t : Step) : Tracker × Option Err :=
  match t.node.saver with
  | some sink =>
    if sink = "mlflow" then k.afterModel t
    else if sink = "plt" ∨ sink = "plotly" then k.afterFigure t
    else k.afterSaver t
  | none => if t.node.name ∈ k.finalVars then k.afterFinal t else (k, none)

/-- `run_after_graph_execution`, h_mlflow.py:308-315. -/
def Tracker.finish (k : Tracker) (err : Option Err) : Tracker × Option Err :=
  let done := k.onRun fun r => { r with finished := some err.isNone }
  ({ done with server := { done.server with active := none } }, none)

/-- `MLFlowTracker` as an adapter, h_mlflow.py:51-318. -/
def mlflow : Recorder Tracker where
  start := fun k r => k.start r
  before := fun k _ => (k, none)
  during := fun k _ => k
  after := fun k _ t => k.after t
  finish := fun k _ err => k.finish err

/-! ### Experiments -/

/-- `NodeMaterializer`, h_experiments/hook.py:72-77. -/
structure Materialized where
  sources : List Name
  path : String
  sink : String
  saver : String
  deriving DecidableEq, Repr

/-- `RunMetadata`, h_experiments/hook.py:80-94; the date is left out, the modules are in order of appearance. -/
structure Record where
  success : Bool
  version : String
  modules : List Name
  config : Dict Name Val
  inputs : List (Name × Val × Val)
  overrides : List (Name × Val)
  materialized : List Materialized
  deriving DecidableEq, Repr

/-- `ExperimentTracker`, h_experiments/hook.py:97-124, with the working directory of the process, the database of runs, and the
directories in which nodes were executed.  `relative`: the base directory was given as a relative path. -/
structure Lab where
  id : Name
  initDir : String
  runDir : String
  relative : Bool
  config : Dict Name Val
  version : String := ""
  modules : List Name := []
  inputs : List (Name × Val × Val) := []
  overrides : List (Name × Val) := []
  materialized : List Materialized := []
  cwd : String
  db : Dict Name Record := []
  ran : List (Name × String) := []
  deriving DecidableEq, Repr

/-- `_get_default_input`, h_experiments/hook.py:27-32: `None` if there is no default; a parameter that the function does not have is a
KeyError. -/
def defaultOf (n : Name) (f : Fn) : Except Err Val :=
  match f.params.get? n with
  | none => .error .key
  | some none => .ok .none
  | some (some v) => .ok v

/-- The loop over the nodes, h_experiments/hook.py:137-149. -/
def Lab.scan (l : Lab) (inputs : Option (Dict Name Val)) : List GNode → Lab × Option Err
  | [] => (l, none)
  | x :: rest =>
    match x.module with
    | some m => { l with modules := if m ∈ l.modules then l.modules else l.modules ++ [m] }.scan inputs rest
    | none =>
      if x.external then
        match x.origins with
        | [] => l.scan inputs rest
        | f :: _ =>
          match inputs with
          | none => (l, some .attribute)
          | some ins =>
            match defaultOf x.name f with
            | .error e => (l, some e)
            | .ok d => { l with inputs := l.inputs ++ [(x.name, (ins.get? x.name).getD .none, d)] }.scan inputs rest
      else l.scan inputs rest

/-- `run_before_graph_execution`, h_experiments/hook.py:126-152. -/
def Lab.start (l : Lab) (r : Run) : Lab × Option Err :=
  match { l with version := r.version }.scan r.inputs r.graph with
  | (l, some e) => (l, some e)
  | (l, none) =>
    match r.overrides with
    | none => (l, none)
    | some o => (if o.isEmpty then l else { l with overrides := o }, none)

/-- `run_before_node_execution`, h_experiments/hook.py:154-157. -/
def Lab.before (l : Lab) (t : Step) : Lab :=
  if t.node.saver.isSome then { l with cwd := l.runDir } else l

/-- `Path(path).resolve()`, h_experiments/hook.py:178. Simplified: `..` and links are left as they are. -/
def resolve (cwd path : String) : String := if ['/'].isPrefixOf path.toList then path else cwd ++ "/" ++ path

/-- `run_after_node_execution`, h_experiments/hook.py:159-183: without a path, `path` is not bound. -/
def Lab.after (l : Lab) (t : Step) : Lab × Option Err :=
  match t.node.saver with
  | none => (l, none)
  | some sink =>
    match t.result with
    | .info m =>
      match pathOf m with
      | none => (l, some .unbound)
      | some p =>
        ({ l with
          materialized := l.materialized ++ [⟨t.kwargs.keys, resolve l.cwd p, sink, t.node.saverClass⟩]
          cwd := l.initDir }, none)
    | _ => (l, some .type)

/-- `JsonCache.write`, h_experiments/cache.py:12-14: the path of the database is relative if the base directory was, and there is no
such directory anywhere else. -/
def Lab.store (l : Lab) (r : Record) : Lab × Option Err :=
  if l.relative ∧ l.cwd ≠ l.initDir then (l, some .db) else ({ l with db := l.db.set l.id r }, none)

/-- `run_after_graph_execution`, h_experiments/hook.py:185-202. -/
def Lab.finish (l : Lab) (err : Option Err) : Lab × Option Err :=
  l.store
    { success := err.isNone
      version := l.version
      modules := l.modules
      config := l.config
      inputs := l.inputs
      overrides := l.overrides
      materialized := l.materialized }

/-- `ExperimentTracker` as an adapter, h_experiments/hook.py:97-202. -/
def experiment : Recorder Lab where
  start := fun l r => l.start r
  before := fun l t => (l.before t, none)
  during := fun l t => { l with ran := l.ran ++ [(t.node.name, l.cwd)] }
  after := fun l _ t => l.after t
  finish := fun l _ err => l.finish err

/-- `JsonCache.read`, h_experiments/cache.py:16-18. -/
def Lab.read (l : Lab) (id : Name) : Except Err Record :=
  match l.db.get? id with
  | some r => .ok r
  | none => .error .key

/-- `JsonCache.delete`, h_experiments/cache.py:20-22: the database is opened for reading, in which nothing can be deleted. -/
def Lab.delete (l : Lab) (_ : Name) : Lab × Option Err := (l, some .db)

/-! ### OpenLineage -/

/-- A data set in an event: its name (`None` for the table of a query), the source, format and path of a file, and the columns. -/
structure DataSet where
  name : Option String
  file : Option (String × String × String)
  columns : Option (List (String × String))
  deriving DecidableEq, Repr

/-- Events, h_openlineage.py:222-239, 310-324, 344-367.  Times and the source code are left out. -/
inductive Event where
  | start (run : Name) (version : String) (finalVars inputs overrides : List Name)
  | running (run : Name) (inputs outputs : List DataSet) (query : Option (Option String))
  | complete (run : Name)
  | fail (run : Name) (error : Err)
  deriving DecidableEq, Repr

/-- `x.split(".")[-1]`, h_openlineage.py:66, 102. -/
def lastPart (x : String) : String := String.ofList (x.toList.reverse.takeWhile (· != '.')).reverse

/-- `"." in x`, h_openlineage.py:66, 102. -/
def hasDot (x : String) : Bool := x.toList.contains '.'

/-- `extract_schema_facet`, h_openlineage.py:36-53: `zip(None, None)` is a TypeError. -/
def columnsOf (m : Meta) : Except Err (Option (List (String × String))) :=
  match m.frame with
  | none => .ok none
  | some none => .error .type
  | some (some cs) => .ok (some cs)

/-- `text.split(part)[0]`: what comes before the first occurrence. -/
def cutAt (part : List Char) : List Char → List Char
  | [] => []
  | c :: cs => if part.isPrefixOf (c :: cs) then [] else c :: cutAt part cs

/-- `name.split(".loader")[0]` if `.loader` occurs (else the name), h_openlineage.py:62-64. -/
def loadedName (n : Name) : String := String.ofList (cutAt ".loader".toList n.toList)

/-- `create_input_dataset`, h_openlineage.py:56-93: the format is looked for if the name of the node has a dot. -/
def inputSet (n : GNode) (m : Meta) : Except Err (DataSet × Option (Option String)) :=
  match columnsOf m with
  | .error e => .error e
  | .ok cs =>
    match m.file, m.sql with
    | some p, _ =>
      .ok ({ name := some (loadedName n.name)
             file := some (loadedName n.name, if hasDot (loadedName n.name) then lastPart p else "unknown", p)
             columns := cs }, none)
    | none, some (table, query) => .ok ({ name := table, file := none, columns := cs }, some query)
    | none, none => .ok ({ name := some "--UNKNOWN--", file := none, columns := cs }, none)

/-- `create_output_dataset`, h_openlineage.py:96-126. -/
def outputSet (n : GNode) (m : Meta) : Except Err DataSet :=
  match columnsOf m with
  | .error e => .error e
  | .ok cs =>
    match m.file, m.sql with
    | some p, _ =>
      .ok { name := some p, file := some (n.name, if hasDot p then lastPart p else "unknown", p), columns := cs }
    | none, some (table, _) => .ok { name := table, file := none, columns := cs }
    | none, none => .ok { name := some "--UNKNOWN--", file := none, columns := cs }

/-- `pre_graph_execute`, h_openlineage.py:185-240. -/
def lineageStart (out : List Event) (r : Run) : List Event × Option Err :=
  (out ++ [.start r.id r.version r.finalVars (r.inputs.getD []).keys (r.overrides.getD []).keys], none)

/-- `post_node_execute`, h_openlineage.py:248-325, up to the event. -/
def lineageEvents (run : Name) (t : Step) : Except Err (List Event) :=
  match t.outcome with
  | .error _ => .ok []
  | .ok v =>
    match t.node.saver, t.node.loader, v with
    | some _, _, .info m =>
      if m.isEmpty then .ok []
      else
        match outputSet t.node m with
        | .error e => .error e
        | .ok d => .ok [.running run [] [d] none]
    | _, some true, .pair _ m =>
      if m.isEmpty then .ok []
      else
        match inputSet t.node m with
        | .error e => .error e
        | .ok (d, q) => .ok [.running run [d] [] q]
    | _, _, _ => .ok []

/-- `post_node_execute`, h_openlineage.py:248-325. -/
def lineageAfter (out : List Event) (run : Name) (t : Step) : List Event × Option Err :=
  match lineageEvents run t with
  | .error e => (out, some e)
  | .ok es => (out ++ es, none)

/-- `post_graph_execute`, h_openlineage.py:327-368. -/
def lineageFinish (out : List Event) (r : Run) (err : Option Err) : List Event × Option Err :=
  match err with
  | none => (out ++ [.complete r.id], none)
  | some e => (out ++ [.fail r.id e], none)

/-- `OpenLineageAdapter`, h_openlineage.py:129-368. -/
def lineage : Recorder (List Event) where
  start := lineageStart
  before := fun out _ => (out, none)
  during := fun out _ => out
  after := lineageAfter
  finish := lineageFinish

/-- A call of one of the hooks. -/
inductive Call where
  | start (r : Run)
  | after (run : Name) (t : Step)
  | finish (r : Run) (err : Option Err)

/-- One call of a hook of the adapter, h_openlineage.py:185-368. -/
def lineageCall (out : List Event) : Call → List Event × Option Err
  | .start r => lineageStart out r
  | .after run t => lineageAfter out run t
  | .finish r err => lineageFinish out r err

/-- Calls of the hooks in any order: the adapter may belong to several drivers that run at the same time, and nodes may be executed in
threads.  An exception of a hook concerns the run it is called for. -/
def lineageCalls : List Event → List Call → List Event
  | out, [] => out
  | out, c :: rest => lineageCalls (lineageCall out c).1 rest

/-! ### Slack -/

/-- `run_after_node_execution` of `SlackNotifier`, h_slack.py:58-83: a message (here: run, node and error) if there was an error. -/
def slackAfter (out : List (Name × Name × Err)) (run : Name) (t : Step) : List (Name × Name × Err) × Option Err :=
  match t.error with
  | some e => (out ++ [(run, t.node.name, e)], none)
  | none => (out, none)

/-- `SlackNotifier`, h_slack.py:10-83. -/
def slack : Recorder (List (Name × Name × Err)) where
  start := fun out _ => (out, none)
  before := fun out _ => (out, none)
  during := fun out _ => out
  after := slackAfter
  finish := fun out _ _ => (out, none)

end Verif.Recorders
