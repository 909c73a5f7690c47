import Verif.Model.Query

/-!
`Driver.execute` with the default executor: hamilton/driver.py:139-183, 523-582, 786-834 and
hamilton/graph.py:1076-1106, hamilton/execution/graph_functions.py:84-97.
Adapters, result building and telemetry are left out (a driver without adapters returns the dict).
-/
namespace Verif
variable {T V : Type}

/-- Validation messages of driver.py:556-577. -/
inductive ValidationErr where
  | requiredMissing (n : Name)
  | typeMismatch (n : Name)
  deriving DecidableEq, Repr

/-- Exceptions of an execute call. `clash`: graph_functions.py:92-96; `query`: unknown names;
`validation`: driver.py:578-581; `invalidExecutor`: driver.py:156-162; `exec`: from the run. -/
inductive DriverErr where
  | clash (names : List Name)
  | query (e : QueryErr)
  | validation (es : List ValidationErr)
  | invalidExecutor (n : Name)
  | exec (e : ExecErr)
  deriving DecidableEq, Repr

/-- `combine_config_and_inputs`, graph_functions.py:84-97. -/
def combineConfigAndInputs (config inputs : Dict Name V) : Except (List Name) (Dict Name V) :=
  let dup := inputs.keys.filter (fun k => config.has k)
  if dup.length > 0 then .error dup else .ok (config.merge inputs)

/-- What the driver needs to know about values and types: `isNone v` is `v is None`; `accepts t v` is
`htypes.check_input_type(t, v)` (modelled in `Verif.Model.Types`, here a parameter). -/
structure TypeOracle (T V : Type) where
  isNone : V → Bool
  accepts : T → V → Bool

/-- `Driver.validate_inputs`, driver.py:523-582, with `nodes_set` given and no `do_validate_input` adapter.
A user node that is not in the graph cannot occur. -/
def validateInputs (o : TypeOracle T V) (fg : FnGraph T V) (userNodes : List Name)
    (inputs : Option (Dict Name V)) (nodesSet : List Name) : Except DriverErr Unit :=
  match combineConfigAndInputs fg.config (inputs.getD []) with
  | .error ks => .error (.clash ks)
  | .ok all =>
    let errors := userNodes.filterMap (fun u =>
      match fg.nodes.get? u with
      | none => none
      | some un =>
        match all.get? u with
        | none => if requiredByAnything fg.nodes un nodesSet then some (.requiredMissing u) else none
        | some v => if o.isNone v || o.accepts un.typ v then none else some (.typeMismatch u))
    if errors = [] then .ok () else .error (.validation errors)

/-- `DefaultGraphExecutor.validate`, driver.py:150-162. -/
def defaultExecutorValidate (g : Graph T V) (nodes : List Name) : Except DriverErr Unit :=
  match nodes.find? (fun n => match g.get? n with
    | some nn => nn.kind == .expand || nn.kind == .collect
    | none => false) with
  | some n => .error (.invalidExecutor n)
  | none => .ok ()

/-- `DefaultGraphExecutor.execute`, driver.py:164-183, together with `FunctionGraph.execute`, graph.py:1076-1106.
A value of the result is `none` when Python's double `.get` yields the default `None`. -/
def defaultExecutorExecute (fg : FnGraph T V) (finalVars : List Name) (overrides inputs : Dict Name V) :
    Except DriverErr (Dict Name (Option V)) :=
  match combineConfigAndInputs fg.config inputs with
  | .error ks => .error (.clash ks)
  | .ok all =>
    match executeSubdag fg.nodes (finalVars.filterMap (fun k => fg.nodes.get? k)) all overrides with
    | .err e _ => .error (.exec e)
    | .ok s => .ok (finalVars.foldl (fun out k =>
        out.set k (match s.computed.get? k with
          | some v => some v
          | none => inputs.get? k)) [])

/-- `Driver.execute` → `__raw_execute`, driver.py:786-834. -/
def driverExecute (o : TypeOracle T V) (fg : FnGraph T V) (finalVars : List Name)
    (inputs overrides : Option (Dict Name V)) : Except DriverErr (Dict Name (Option V)) :=
  match getUpstreamNodes fg finalVars inputs overrides with
  | .err e _ => .error (.query e)
  | .ok s =>
    match validateInputs o fg s.userNodes inputs s.nodes with
    | .error e => .error e
    | .ok () =>
      match defaultExecutorValidate fg.nodes (s.nodes ++ s.userNodes) with
      | .error e => .error e
      | .ok () => defaultExecutorExecute fg finalVars (overrides.getD []) (inputs.getD [])

end Verif
