import Verif.Model.Exec

/-!
Graph queries: hamilton/graph.py:959-1074 and hamilton/execution/graph_functions.py:334-402.
-/
namespace Verif
variable {T V : Type}

/-- `FunctionGraph`: its `nodes` dictionary and its `config`, hamilton/graph.py (constructor and `from_modules`). -/
structure FnGraph (T V : Type) where
  nodes : Graph T V
  config : Dict Name V

/-- Errors of graph queries: `unknown` is the ValueError of graph.py:1071-1073 with all missing names;
`keyError` a failing dictionary lookup; `diverge` RecursionError. -/
inductive QueryErr where
  | unknown (names : List Name)
  | keyError (n : Name)
  | diverge
  deriving DecidableEq, Repr

/-- The two sets `nodes`, `user_nodes` (graph.py:1050-1051), by name, in the order of insertion.  The Python sets hold
node objects; within one graph a name identifies the object. -/
structure Visited where
  nodes : List Name
  userNodes : List Name

/-- Python `set.add`. -/
def setAdd (l : List Name) (x : Name) : List Name := if l.contains x then l else l ++ [x]

/-- Body of the loop graph.py:1055-1057: recurse (`rec`) into a successor that was not seen. -/
def visitDep (g : Graph T V) (rec : Node T V → Visited → Out Visited QueryErr) (d : Name) (s : Visited) :
    Out Visited QueryErr :=
  if s.nodes.contains d then .ok s
  else
    match g.get? d with
    | some dn => rec dn s
    | none => .err (.keyError d) s

/-- Inner `dfs_traverse`, graph.py:1053-1059. `next` is `next_nodes_fn` (by names). -/
def visit (g : Graph T V) (next : Node T V → List Name) :
    Nat → Node T V → Visited → Out Visited QueryErr
  | 0, _, s => .err .diverge s
  | fuel + 1, n, s =>
    (forEach (visitDep g (visit g next fuel)) (next n) { s with nodes := setAdd s.nodes n.name }).bind fun s =>
    .ok (if n.userDefined then { s with userNodes := setAdd s.userNodes n.name } else s)

/-- Body of the loop graph.py:1062-1069 (the collection of missing names is in `directionalDfs`). -/
def visitStart (fg : FnGraph T V) (next : Node T V → List Name) (v : Name) (s : Visited) :
    Out Visited QueryErr :=
  if fg.nodes.has v || fg.config.has v then
    match fg.nodes.get? v with
    | some n => visit fg.nodes next (fg.nodes.length + 1) n s
    | none => .err (.keyError v) s
  else .ok s

/-- `directional_dfs_traverse`, graph.py:1033-1074. `runtimeInputs = none` is Python's `None`.
The missing names are collected over the whole loop (lines 1061-1069) and reported at the end (1070-1073). -/
def directionalDfs (fg : FnGraph T V) (next : Node T V → List Name) (starting : List Name)
    (runtimeInputs : Option (Dict Name V)) : Out Visited QueryErr :=
  let missing := starting.filter
    (fun v => !(fg.nodes.has v || fg.config.has v) && !((runtimeInputs.getD []).has v))
  (forEach (visitStart fg next) starting ⟨[], []⟩).bind fun s =>
  if missing = [] then .ok s else .err (.unknown missing) s

/-- `get_downstream_nodes`, graph.py:959-969. -/
def getDownstreamNodes (fg : FnGraph T V) (changes : List Name) : Out Visited QueryErr :=
  directionalDfs fg (fun n => n.dependedOnBy) changes none

/-- `runtime_overrides is not None and n.name in runtime_overrides`, graph.py:993. -/
def isOverridden (overrides : Option (Dict Name V)) (k : Name) : Bool := (overrides.getD []).has k

/-- The test of graph.py:1000-1007: `d` is an optional input of `n` for which no value is available. -/
def skipsOptional (fg : FnGraph T V) (ins : Dict Name V) (n : Node T V) (d : Name) : Bool :=
  (match fg.nodes.get? d with | some dn => dn.userDefined | none => false)
    && !(ins.has d) && !(fg.config.has d)
    && (match n.inputTypes.get? d with | some (_, .optional) => true | _ => false)

/-- `next_nodes_function`, graph.py:991-1008. -/
def upstreamNext (fg : FnGraph T V) (inputs overrides : Option (Dict Name V)) (n : Node T V) : List Name :=
  if isOverridden overrides n.name then []
  else
    match inputs with
    | none => n.dependencies
    | some ins => n.dependencies.filter (fun d => !skipsOptional fg ins n d)

/-- `get_upstream_nodes`, graph.py:971-1012. -/
def getUpstreamNodes (fg : FnGraph T V) (finalVars : List Name) (inputs overrides : Option (Dict Name V)) :
    Out Visited QueryErr :=
  directionalDfs fg (upstreamNext fg inputs overrides) finalVars inputs

/-- `node_is_required_by_anything`, graph_functions.py:385-402: the consumers in `nodeSet` are inspected in order;
`none` would be the KeyError of line 399. -/
def requiredByAnything (g : Graph T V) (n : Node T V) (nodeSet : List Name) : Bool :=
  n.dependedOnBy.any (fun m =>
    nodeSet.contains m &&
      match g.get? m with
      | some mn => (match mn.inputTypes.get? n.name with | some (_, .required) => true | _ => false)
      | none => false)

/-- State of the search of `nodes_between`, graph_functions.py:356-358: `out`, `visited`, `search_node`. -/
structure Between where
  out : List Name
  visited : List Name
  found : Option Name

/-- Body of the loop graph_functions.py:372-373, `any_deps_included |= dfs_traverse(n)`; `rec` is `dfs_traverse`. -/
def betweenDep (g : Graph T V) (rec : Node T V → Between → Out (Between × Bool) QueryErr) (d : Name)
    (p : Between × Bool) : Out (Between × Bool) QueryErr :=
  match g.get? d with
  | none => .err (.keyError d) p
  | some dn => (rec dn p.1).bind fun q => .ok (q.1, p.2 || q.2)

/-- `dfs_traverse` of `nodes_between`, graph_functions.py:360-377, returning also the boolean result. -/
def betweenVisit (g : Graph T V) (cond : Node T V → Bool) :
    Nat → Node T V → Between → Out (Between × Bool) QueryErr
  | 0, _, s => .err .diverge (s, false)
  | fuel + 1, n, s =>
    if cond n then .ok ({ s with found := some n.name }, true)
    else if s.visited.contains n.name then .ok (s, s.out.contains n.name)
    else
      (forEach (betweenDep g (betweenVisit g cond fuel)) n.dependencies
        ({ s with visited := setAdd s.visited n.name }, false)).bind fun p =>
      .ok (if p.2 then { p.1 with out := setAdd p.1.out n.name } else p.1, p.2)

/-- `nodes_between`, graph_functions.py:334-382: search backwards from the dependencies of `end_node` (lines 379-380; the
boolean results are dropped there, here they are accumulated and not looked at).  Returns `search_node` and `out`. -/
def nodesBetween (g : Graph T V) (endNode : Node T V) (cond : Node T V → Bool) :
    Out (Between × Bool) QueryErr :=
  forEach (betweenDep g (betweenVisit g cond (g.length + 1))) endNode.dependencies (⟨[], [], none⟩, false)

/-- `FunctionGraph.nodes_between`, graph.py:1014-1031: the start, the nodes between and the end; nothing if there is no
path. -/
def fgNodesBetween (g : Graph T V) (start fin : Name) : Out (List Name) QueryErr :=
  match g.get? fin with
  | none => .err (.keyError fin) []
  | some endNode =>
    match nodesBetween g endNode (fun n => n.name == start) with
    | .err e _ => .err e []
    | .ok (s, _) =>
      match s.found with
      | none => .ok []
      | some st => .ok ([st] ++ s.out ++ [fin])

end Verif
