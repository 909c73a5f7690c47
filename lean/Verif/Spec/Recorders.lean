import Verif.Model.Recorders

/-!
What the adapters of `Verif.Model.Recorders` should have recorded about a run, written without their functions: only the data of runs
and of records is used.
-/
namespace Verif.Recorders.Spec

open Verif.Recorders

/-- The executions of a run that succeeded, with their results: all before the first that failed. -/
def succeeded : List Step → List (Step × Val)
  | [] => []
  | t :: rest =>
    match t.outcome with
    | .ok v => (t, v) :: succeeded rest
    | .error _ => []

/-- The execution that failed. -/
def failed : List Step → Option (Step × Err)
  | [] => none
  | t :: rest =>
    match t.outcome with
    | .ok _ => failed rest
    | .error e => some (t, e)

/-- The exception a run ends with by itself. -/
def failureOf (r : Run) : Option Err :=
  match failed r.steps with
  | some (_, e) => some e
  | none => r.build

/-- `part` is somewhere in `text`. -/
def occurs (part text : List Char) : Bool :=
  (List.range (text.length + 1)).any fun i => part.isPrefixOf (text.drop i)

/-- What comes before the first occurrence of `part`, if there is one. -/
def upTo (part text : List Char) : List Char :=
  match (List.range text.length).find? fun i => part.isPrefixOf (text.drop i) with
  | some i => text.take i
  | none => text

/-- The letters after the last dot. -/
def extension (p : String) : String :=
  String.ofList (p.toList.foldl (fun acc c => if c = '.' then [] else acc ++ [c]) [])

/-- The place that a data saver tells it wrote to; an empty string is none. -/
def place (m : Meta) : Option String := (m.path.or m.file).filter fun p => p != ""

/-! ### MLflow -/

/-- What the result of a final variable is logged as. -/
def loggedValue (n : GNode) (v : Val) : Option Logged :=
  match n.type, v with
  | .float, .number x => some (.metric n.name x)
  | .int, .number x => some (.metric n.name x)
  | .float, _ => none
  | .int, _ => none
  | .figure, v => some (.figure v (n.name ++ ".png"))
  | _, v => some (.dict v (n.name ++ ".pickle"))

/-- What a successful execution should leave in the log of the run. -/
def loggedOf (finals : List Name) (x : Step × Val) : Option Logged :=
  match x.1.node.saver with
  | none => if x.1.node.name ∈ finals then loggedValue x.1.node x.2 else none
  | some sink =>
    if sink = "mlflow" then none
    else
      match x.2 with
      | .info m =>
        match place m with
        | none => none
        | some p =>
          if sink = "plt" ∨ sink = "plotly" then
            match x.1.node.required with
            | [d] => (x.1.kwargs.get? d).map fun fig => .figure fig p
            | _ => none
          else some (.artifact p x.1.node.name)
      | _ => none

/-- What a successful execution should leave in the registry of models: the description, the function and the tags of the node that
made the model. -/
def noteOf (graph : List GNode) (x : Step × Val) : Option ModelNote :=
  if x.1.node.saver = some "mlflow" then
    match x.2 with
    | .info m =>
      match m.registered, x.1.node.required with
      | some (model, version), [d] =>
        match graph.find? fun y => y.name = d with
        | some y =>
          some
            { model := model
              version := version
              doc := y.doc
              node := d
              function := (y.origins.map Fn.name).headD ""
              tags := y.tags.filter fun p => !occurs "hamilton.".toList p.1.toList }
        | none => none
      | _, _ => none
    | _ => none
  else none

/-- The record of a run on the MLflow server. -/
def mlRunOf (config : Dict Name Val) (r : Run) : MlRun :=
  { hamiltonRun := r.id
    codeVersion := r.version
    params := config ++ r.inputs.getD []
    log := (succeeded r.steps).filterMap (loggedOf r.finalVars)
    finished := some (failureOf r).isNone }

/-- The runs that the MLflow tracker can record: inputs are given (whose names, with those of the configuration, are all different);
what fails is neither a saver nor a final variable; savers return metadata; numbers are numbers; savers of figures and models belong to
the graph, save one node of the graph, and nothing is executed twice. -/
structure Trackable (config : Dict Name Val) (r : Run) : Prop where
  inputs : ∃ ins, r.inputs = some ins ∧ ((config ++ ins).map Prod.fst).Nodup
  failing : ∀ t ∈ r.steps, ∀ e, t.outcome = .error e → t.node.saver = none ∧ t.node.name ∉ r.finalVars
  saved : ∀ t ∈ r.steps, ∀ v, t.outcome = .ok v → t.node.saver.isSome → ∃ m, v = .info m
  numbers : ∀ t ∈ r.steps, ∀ v, t.outcome = .ok v → t.node.saver = none → t.node.name ∈ r.finalVars →
    t.node.type = .float ∨ t.node.type = .int → ∃ n, v = .number n
  names : (r.graph.map GNode.name).Nodup
  once : (r.steps.map fun t => t.node.name).Nodup
  source : ∀ t ∈ r.steps, ∀ sink, t.node.saver = some sink → sink ∈ ["mlflow", "plt", "plotly"] →
    t.node ∈ r.graph ∧ ∃ y ∈ r.graph, t.node.required = [y.name] ∧ y.origins ≠ [] ∧ y.name ∈ t.kwargs.map Prod.fst

/-! ### Experiments -/

/-- The place a path means for someone in a directory. -/
def placeIn (dir path : String) : String :=
  if path.toList.head? = some '/' then path else dir ++ "/" ++ path

/-- The entry for an input: its value (`None` if it is not given) and its default (`None` if there is none). -/
def inputOf (ins : Dict Name Val) (n : GNode) : Option (Name × Val × Val) :=
  if n.external ∧ n.module = none then
    match n.origins with
    | [] => none
    | f :: _ => some (n.name, (ins.get? n.name).getD .none, ((f.params.get? n.name).getD none).getD .none)
  else none

/-- The entry for what a saver wrote. -/
def materializedOf (dir : String) (x : Step × Val) : Option Materialized :=
  match x.1.node.saver, x.2 with
  | some sink, .info m =>
    (m.path.or m.file).map fun p => ⟨x.1.kwargs.map Prod.fst, placeIn dir p, sink, x.1.node.saverClass⟩
  | _, _ => none

/-- The nodes that were executed, with those that failed, and the directory they should have been executed in. -/
def ranIn (init run : String) : List Step → List (Name × String)
  | [] => []
  | t :: rest =>
    (t.node.name, if t.node.saver.isSome then run else init) ::
      (match t.outcome with
       | .ok _ => ranIn init run rest
       | .error _ => [])

/-- The runs that the experiment tracker can record: inputs are given, inputs of the graph are parameters of their first function, no
saver fails, and each returns a path. -/
structure Experimental (r : Run) : Prop where
  inputs : r.inputs.isSome
  params : ∀ n ∈ r.graph, n.external = true → ∀ f, n.origins.head? = some f → n.name ∈ f.params.map Prod.fst
  failing : ∀ t ∈ r.steps, ∀ e, t.outcome = .error e → t.node.saver = none
  saved : ∀ t ∈ r.steps, ∀ v, t.outcome = .ok v → t.node.saver.isSome →
    ∃ m, v = .info m ∧ (m.path.isSome ∨ m.file.isSome)

/-! ### OpenLineage -/

/-- The type of a file. -/
def format (p : String) : String := if '.' ∈ p.toList then extension p else "unknown"

/-- The data set that a saver wrote. -/
def outputOf (n : GNode) (m : Meta) : DataSet :=
  { name := if m.file.isSome then m.file else if m.sql.isSome then m.sql.bind Prod.fst else some "--UNKNOWN--"
    file := m.file.map fun p => (n.name, format p, p)
    columns := m.frame.join }

/-- The data set that a loader read. -/
def inputSetOf (n : GNode) (m : Meta) : DataSet :=
  { name :=
      if m.file.isSome then some (String.ofList (upTo ".loader".toList n.name.toList))
      else if m.sql.isSome then m.sql.bind Prod.fst
      else some "--UNKNOWN--"
    file := m.file.map fun p => (String.ofList (upTo ".loader".toList n.name.toList), format p, p)
    columns := m.frame.join }

/-- There is nothing in the metadata. -/
def nothing (m : Meta) : Prop := m = {}

instance (m : Meta) : Decidable (nothing m) := inferInstanceAs (Decidable (m = _))

/-- The event for a successful execution. -/
def runningOf (run : Name) (x : Step × Val) : Option Event :=
  match x.2 with
  | .info m => if x.1.node.saver.isSome ∧ ¬ nothing m then some (.running run [] [outputOf x.1.node m] none) else none
  | .pair _ m =>
    if x.1.node.loader = some true ∧ ¬ nothing m then
      some (.running run [inputSetOf x.1.node m] [] (if m.file.isSome then none else m.sql.map Prod.snd))
    else none
  | _ => none

/-- The metadata that a successful execution tells about. -/
def told (x : Step × Val) : Option Meta :=
  match x.2 with
  | .info m => if x.1.node.saver.isSome then some m else none
  | .pair _ m => if x.1.node.loader = some true then some m else none
  | _ => none

/-- The metadata is that of a frame, if it is told to be. -/
def framed (m : Meta) : Prop := m.frame ≠ some none

/-- The type of a loaded file is visible: the node has a name with a dot besides `.loader`, and so has the file. -/
def visible (x : Step × Val) : Prop :=
  ∀ id m p, x.2 = .pair id m → m.file = some p →
    '.' ∈ upTo ".loader".toList x.1.node.name.toList ∧ '.' ∈ p.toList

/-- The events for a run. -/
def eventsOf (r : Run) : List Event :=
  .start r.id r.version r.finalVars ((r.inputs.getD []).map Prod.fst) ((r.overrides.getD []).map Prod.fst) ::
    ((succeeded r.steps).filterMap (runningOf r.id) ++
      [match failureOf r with
       | none => .complete r.id
       | some e => .fail r.id e])

/-- The run that an event belongs to. -/
def runOf : Event → Name
  | .start r _ _ _ _ => r
  | .running r _ _ _ => r
  | .complete r => r
  | .fail r _ => r

end Verif.Recorders.Spec
