import Verif.Model.Materialize

/-!
What can be asked of a driver without running it: the ways of naming outputs, `Driver.validate_execution`,
`Driver.validate_materialization`, `Driver.has_cycles` and `Driver.export_execution`.
-/
namespace Verif.DryRun
variable {T V : Type}

/-- What may stand in the list of requested outputs (common/__init__.py:5-34): a string, an object with an attribute `name` (a
`driver.Variable`), a callable with its `__module__` and `__name__`, or anything else. -/
inductive Request where
  | str (s : Name)
  | named (name : Name)
  | function (module name : Name)
  | other
  deriving DecidableEq, Repr

/-- `convert_output_value`, common/__init__.py:5-34; the two texts are shortened to their kind. -/
def convertOne (modules : List Name) : Request → Except UserErr Name
  | .str s => .ok s
  | .named n => .ok n
  | .function m n => if modules.contains m then .ok n else .error "not in a module given"
  | .other => .error "not a string, a function, or a driver.Variable"

/-- The loop of `convert_output_values`, common/__init__.py:46-53: the values kept and the errors.  `if _val:` drops the empty
string. -/
def convertLoop (modules : List Name) : List Request → List Name × List UserErr
  | [] => ([], [])
  | r :: rest =>
    let t := convertLoop modules rest
    match convertOne modules r with
    | .ok v => if v = "" then t else (v :: t.1, t.2)
    | .error e => (t.1, e :: t.2)

/-- Errors of the calls modelled here: the ValueError of `convert_output_values` with the number of errors
(common/__init__.py:54-57), a TypeError, errors of the driver, errors of `materialize`. -/
inductive DryErr where
  | convert (count : Nat)
  | typeError
  | driver (e : DriverErr)
  | materialize (e : MaterializeErr)
  deriving DecidableEq, Repr

/-- `Driver._create_final_vars`, driver.py:654-662, with `convert_output_values`, common/__init__.py:37-57. -/
def createFinalVars (modules : List Name) (rs : List Request) : Except DryErr (List Name) :=
  let t := convertLoop modules rs
  if t.2.length = 0 then .ok t.1 else .error (.convert t.2.length)

/-- `Driver.execute`, driver.py:584-652, without adapters: the requests are converted before anything else happens. -/
def execute (o : TypeOracle T V) (modules : List Name) (fg : FnGraph T V) (rs : List Request)
    (inputs overrides : Option (Dict Name V)) : Except DryErr (Dict Name (Option V)) :=
  match createFinalVars modules rs with
  | .error e => .error e
  | .ok fv =>
    match driverExecute o fg fv inputs overrides with
    | .error e => .error (.driver e)
    | .ok out => .ok out

/-- The strings of a list of requests, `none` if one is not a string. -/
def strings : List Request → Option (List Name)
  | [] => some []
  | .str s :: rest =>
    match strings rest with
    | some l => some (s :: l)
    | none => none
  | _ :: _ => none

/-- The body of `Driver.validate_execution` for strings, driver.py:1806-1808. -/
def validateNames (o : TypeOracle T V) (fg : FnGraph T V) (fv : List Name) (inputs overrides : Option (Dict Name V)) :
    Except DriverErr Unit :=
  match getUpstreamNodes fg fv inputs overrides with
  | .err e _ => .error (.query e)
  | .ok s =>
    match validateInputs o fg s.userNodes inputs s.nodes with
    | .error e => .error e
    | .ok () => defaultExecutorValidate fg.nodes (s.nodes ++ s.userNodes)

/-- `Driver.validate_execution`, driver.py:1792-1808.  The requests are *not* converted: an object that is not a string is
looked up among the nodes as it is (graph.py:1061-1074); if it cannot be hashed (`driver.Variable`, graph_types.py:89-90, is a dataclass with `__eq__`)
this raises a TypeError, otherwise it is no node, and joining the missing names into a message raises a TypeError. -/
def validateExecution (o : TypeOracle T V) (fg : FnGraph T V) (rs : List Request) (inputs overrides : Option (Dict Name V)) :
    Except DryErr Unit :=
  match strings rs with
  | none => .error .typeError
  | some fv =>
    match validateNames o fg fv inputs overrides with
    | .error e => .error (.driver e)
    | .ok () => .ok ()

/-- `Driver.materialize`, driver.py:1633-1694, with the conversion of the additional variables (line 1643). -/
def materialize (ops : AdapterOps T V) (tm : T → T → Bool) (o : TypeOracle T V) (modules : List Name) (fg : FnGraph T V)
    (ms : List (Materializer T V)) (xs : List (Extractor T V)) (rs : List Request) (inputs overrides : Option (Dict Name V)) :
    Except DryErr (Dict Name (Option V) × Dict Name (Option V)) :=
  match createFinalVars modules rs with
  | .error e => .error e
  | .ok fv =>
    match driverMaterialize ops tm o fg ms xs fv inputs overrides with
    | .error e => .error (.materialize e)
    | .ok r => .ok r

/-- `Driver.validate_materialization`, driver.py:1810-1845: there is no check that something is requested. -/
def validateMaterialization (ops : AdapterOps T V) (tm : T → T → Bool) (o : TypeOracle T V) (modules : List Name)
    (fg : FnGraph T V) (ms : List (Materializer T V)) (xs : List (Extractor T V)) (rs : List Request)
    (inputs overrides : Option (Dict Name V)) : Except DryErr Unit :=
  match createFinalVars modules rs with
  | .error e => .error e
  | .ok fv =>
    match modifyGraph ops tm fg.nodes ms xs with
    | .error e => .error (.materialize (.graph e))
    | .ok g' =>
      match validateNames o ⟨g', fg.config⟩ (fv ++ ms.map (·.id)) inputs overrides with
      | .error e => .error (.materialize (.driver e))
      | .ok () => .ok ()

/-- The edges added to the networkx graph, graph.py:686-688: from each dependency to the node. -/
def networkxEdges (g : Graph T V) (nodes : List Name) : List (Name × Name) :=
  nodes.flatMap (fun k => match g.get? k with
    | some n => n.dependencies.map (fun d => (d, k))
    | none => [])

/-- One round of taking away the nodes without an edge from a remaining node. -/
def peelRound (edges : List (Name × Name)) (l : List Name) : List Name :=
  l.filter (fun b => l.any (fun a => edges.contains (a, b)))

/-- As many rounds as told. -/
def peel (edges : List (Name × Name)) : Nat → List Name → List Name
  | 0, l => l
  | k + 1, l => peel edges k (peelRound edges l)

/-- Whether `list(networkx.simple_cycles(digraph))` is not empty (graph.py:847-848).  networkx is not part of the repository; its
function enumerates the elementary circles, of which there is one exactly when taking away nodes without an incoming edge from a
remaining node leaves something. -/
def simpleCycles (edges : List (Name × Name)) (nodes : List Name) : Bool :=
  (peel edges nodes.length nodes).length != 0

/-- `Driver.has_cycles`, driver.py:1121-1136, with `FunctionGraph.has_cycles` and `get_cycles`, graph.py:835-852, and
`create_networkx_graph`, graph.py:667-689.  `networkx`: whether the package is installed; if not, an error is logged and the list of
circles is empty. -/
def hasCycles (networkx : Bool) (modules : List Name) (fg : FnGraph T V) (rs : List Request) : Except DryErr Bool :=
  match createFinalVars modules rs with
  | .error e => .error e
  | .ok fv =>
    match getUpstreamNodes fg fv none none with
    | .err e _ => .error (.driver (.query e))
    | .ok s =>
      if networkx then .ok (simpleCycles (networkxEdges fg.nodes (s.nodes ++ s.userNodes)) (s.nodes ++ s.userNodes))
      else .ok false

/-- The part of `HamiltonNode.as_dict()` that is modelled, graph_types.py:104-122: type, tags, source, documentation and version are
left out. -/
structure Exported where
  name : Name
  required : List Name
  optional : List Name
  deriving DecidableEq, Repr

/-- Insertion of a name into a sorted list of names. -/
def insertName (k : Name) : List Name → List Name
  | [] => [k]
  | a :: r => if k ≤ a then k :: a :: r else a :: insertName k r

/-- Python's `sorted` on names, graph_types.py:113-114. -/
def sortNames (l : List Name) : List Name := l.foldr insertName []

/-- `HamiltonNode.from_node(n).as_dict()`, graph_types.py:104-155: the sets of required and optional parameters, sorted. -/
def exportNode (n : Node T V) : Exported :=
  ⟨n.name,
   sortNames ((n.inputTypes.filter (fun p => p.2.2 = .required)).map (·.1)),
   sortNames ((n.inputTypes.filter (fun p => p.2.2 = .optional)).map (·.1))⟩

/-- Insertion of a record into a list sorted by name. -/
def insertExported (x : Exported) : List Exported → List Exported
  | [] => [x]
  | a :: r => if x.name ≤ a.name then x :: a :: r else a :: insertExported x r

/-- `sorted(hamilton_nodes, key=lambda x: x["name"])`, driver.py:1117. -/
def sortExported (l : List Exported) : List Exported := l.foldr insertExported []

/-- `nodes | user_nodes`, driver.py:1114. -/
def unionNames (a b : List Name) : List Name := a ++ b.filter (fun x => !a.contains x)

/-- `Driver.export_execution`, driver.py:1099-1118, before the conversion into JSON text.  As in `validate_execution` the requests
are not converted. -/
def exportExecution (o : TypeOracle T V) (fg : FnGraph T V) (rs : List Request) (inputs overrides : Option (Dict Name V)) :
    Except DryErr (List Exported) :=
  match strings rs with
  | none => .error .typeError
  | some fv =>
    match getUpstreamNodes fg fv inputs overrides with
    | .err e _ => .error (.driver (.query e))
    | .ok s =>
      match validateInputs o fg s.userNodes inputs s.nodes with
      | .error e => .error (.driver e)
      | .ok () =>
        .ok (sortExported ((unionNames s.nodes s.userNodes).filterMap (fun k =>
          match fg.nodes.get? k with
          | some n => some (exportNode n)
          | none => none)))

end Verif.DryRun
