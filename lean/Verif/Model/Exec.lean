import Verif.Model.Node

/-!
In-memory execution. Mirrors `execute_subdag`, hamilton/execution/graph_functions.py:149-251.
The lifecycle wrapper `execute_lifecycle_for_node` (lines 255-331) without adapters is just the call of
the node function; adapters are modelled separately.
-/
namespace Verif

/-- Why an execution stopped. `missing`: `NotImplementedError` of graph_functions.py:194-197;
`raised`: exception of a node function; `keyError`: lookup of a name that the graph / `input_types` does not have
(line 188); `diverge`: Python's RecursionError on cyclic graphs (out of fuel). -/
inductive ExecErr where
  | missing (n : Name)
  | raised (n : Name) (e : UserErr)
  | keyError (n : Name)
  | diverge
  deriving DecidableEq, Repr

/-- Result of a stateful Python function that may raise: the state reached is kept in both cases. -/
inductive Out (σ ε : Type) where
  | ok (s : σ)
  | err (e : ε) (s : σ)

/-- State reached. -/
def Out.state {σ ε : Type} : Out σ ε → σ
  | .ok s => s
  | .err _ s => s

/-- Sequencing: the continuation is skipped after an exception. -/
def Out.bind {σ ε : Type} (o : Out σ ε) (f : σ → Out σ ε) : Out σ ε :=
  match o with
  | .ok s => f s
  | .err e s => .err e s

/-- Python `for x in xs: body(x)` with a mutable state, aborted by an exception. -/
def forEach {α σ ε : Type} (body : α → σ → Out σ ε) : List α → σ → Out σ ε
  | [], s => .ok s
  | x :: xs, s => (body x s).bind (forEach body xs)

/-- State of an execution: `computed` (graph_functions.py:171-172); `calls` and `stored` are ghost traces:
`calls` records each invocation of a node function with its keyword arguments (line 222), oldest first;
`stored` records each name for which `computed[name] = ...` was executed (lines 184, 224). -/
structure ExecState (V : Type) where
  computed : Dict Name V
  calls : List (Name × Dict Name V)
  stored : List Name

/-- The initial state: `computed = {}` (graph_functions.py:171-172). -/
def ExecState.init {V : Type} : ExecState V := ⟨[], [], []⟩

variable {T V : Type}

/-- `computed[name] = value`, graph_functions.py:184 and 224. -/
def ExecState.store (s : ExecState V) (n : Name) (v : V) : ExecState V :=
  { s with computed := s.computed.set n v, stored := s.stored ++ [n] }

/-- The test of graph_functions.py:233-242 for one dependency: it is in `computed`, is not requested, and the inner
`for ... else` finds no consumer that is not computed or is requested. A name unknown to the graph cannot
occur (the Python code holds the object itself); it is then kept. -/
def prunable (g : Graph T V) (req : List Name) (computed : Dict Name V) (d : Name) : Bool :=
  computed.has d && !(req.contains d) &&
    match g.get? d with
    | some dn => dn.dependedOnBy.all (fun m => computed.has m && !(req.contains m))
    | none => false

/-- graph_functions.py:232-243: drop results of dependencies that no later node of this run needs. -/
def prune (g : Graph T V) (req : List Name) (deps : List Name) (s : ExecState V) : ExecState V :=
  deps.foldl (fun s d =>
    if prunable g req s.computed d then { s with computed := s.computed.del d } else s) s

/-- graph_functions.py:201-204: keyword arguments are the dependencies present in `computed`.
(Dependencies are distinct, so building the dict is a filter.) -/
def kwargsOf (deps : List Name) (computed : Dict Name V) : Dict Name V :=
  deps.filterMap (fun d => (computed.get? d).map (fun v => (d, v)))

/-- `dfs_traverse`, graph_functions.py:178-243, with fuel for the recursion depth.
`req` is `nodes_to_compute` (line 173). -/
def dfs (g : Graph T V) (inputs overrides : Dict Name V) (req : List Name) :
    Nat → Node T V → DepType → ExecState V → Out (ExecState V) ExecErr
  | 0, _, _, s => .err .diverge s
  | fuel + 1, n, dt, s =>
    if s.computed.has n.name then .ok s
    else
      match overrides.get? n.name with
      | some v => .ok (s.store n.name v)
      | none =>
        (forEach (fun d s =>
            if s.computed.has d then .ok s
            else
              match n.inputTypes.get? d, g.get? d with
              | some (_, t), some dn => dfs g inputs overrides req fuel dn t s
              | _, _ => .err (.keyError d) s) n.dependencies s).bind fun s =>
        if n.userDefined then
          match inputs.get? n.name with
          | none => if dt = .optional then .ok s else .err (.missing n.name) s
          | some v => .ok (prune g req n.dependencies (s.store n.name v))
        else
          let kwargs := kwargsOf n.dependencies s.computed
          let s := { s with calls := s.calls ++ [(n.name, kwargs)] }
          match n.fn kwargs with
          | .error e => .err (.raised n.name e) s
          | .ok v => .ok (prune g req n.dependencies (s.store n.name v))

/-- `execute_subdag`, graph_functions.py:245-251. `nodes` are the node objects requested.
Fuel: one more than the number of nodes of the graph, an upper bound of the recursion depth on acyclic
graphs (proved, `Verif.executeSubdag_not_diverge`). -/
def executeSubdag (g : Graph T V) (nodes : List (Node T V)) (inputs overrides : Dict Name V) :
    Out (ExecState V) ExecErr :=
  forEach (fun n s =>
      dfs g inputs overrides (nodes.map (·.name)) (g.length + 1) n
        (if n.userDefined then .optional else .required) s)
    nodes ExecState.init

end Verif
