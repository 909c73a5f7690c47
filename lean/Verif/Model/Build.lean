import Verif.Model.Query

/-!
Graph construction: hamilton/graph.py:40-187 and 741-754.
Input is the list of nodes that `resolve_nodes` produced for the functions of all modules, in order.
-/
namespace Verif
variable {T V : Type}

/-- Errors of construction. `duplicate`: graph.py:173-178; `incompatible`: graph.py:82-92;
`mismatch`: graph.py:99-106; `keyError`: impossible lookups. -/
inductive BuildErr where
  | duplicate (n : Name)
  | incompatible (fn param : Name)
  | mismatch (fn param : Name)
  | keyError (n : Name)
  | duplicates (ns : List Name)
  deriving DecidableEq, Repr

/-- A new input node, graph.py:109-114 and 186-187. -/
def externalNode (name : Name) (typ : T) : Node T V :=
  { name, typ, kind := .external, inputTypes := [], dependencies := [], dependedOnBy := [],
    fn := fun _ => .error "input node has no callable" }

/-- graph.py:113-114: `func_node.dependencies.append(required_node)`, `required_node.depended_on_by.append(func_node)`.
Objects are updated in place in Python; here the dictionary entry is replaced. -/
def addEdge (nodes : Graph T V) (fname param : Name) : Except BuildErr (Graph T V) :=
  match nodes.get? fname with
  | none => .error (.keyError fname)
  | some f =>
    let nodes := nodes.set fname { f with dependencies := f.dependencies ++ [param] }
    match nodes.get? param with
    | none => .error (.keyError param)
    | some r => .ok (nodes.set param { r with dependedOnBy := r.dependedOnBy ++ [fname] })

/-- `add_dependency`, graph.py:40-114, without a `do_check_edge_types_match` adapter.
`tm a b` is `types_match(a, b)`. -/
def addDependency (tm : T → T → Bool) (nodes : Graph T V) (fname param : Name) (ptype : T) :
    Except BuildErr (Graph T V) :=
  match nodes.get? param with
  | some r =>
    if tm ptype r.typ then addEdge nodes fname param
    else if r.userDefined then
      if tm r.typ ptype then addEdge (nodes.set param { r with typ := ptype }) fname param
      else .error (.incompatible fname param)
    else .error (.mismatch fname param)
  | none => addEdge (nodes.set param (externalNode param ptype)) fname param

/-- Inner loop of `update_dependencies`, graph.py:140-141, for one node. -/
def addDependencies (tm : T → T → Bool) (fname : Name) (params : Dict Name (T × DepType)) (nodes : Graph T V) :
    Except BuildErr (Graph T V) :=
  params.foldlM (fun nodes p => addDependency tm nodes fname p.1 p.2.1) nodes

/-- `update_dependencies`, graph.py:117-142.  The outer loop runs over a snapshot of the items (line 139). -/
def updateDependencies (tm : T → T → Bool) (reset : Bool) (nodes : Graph T V) : Except BuildErr (Graph T V) :=
  let nodes : Graph T V := if reset then
      nodes.map (fun p => (p.1, { p.2 with dependencies := [], dependedOnBy := [] })) else nodes
  nodes.foldlM (fun acc p => addDependencies tm p.1 p.2.inputTypes acc) nodes

/-- The collection loop of `create_function_graph`, graph.py:168-180 (with `fg = None`). -/
def collectNodes (config : Dict Name V) (allowOverrides : Bool) (fns : List (Node T V)) :
    Except BuildErr (Graph T V) :=
  fns.foldlM (fun (nodes : Graph T V) n =>
    if config.has n.name then .ok nodes
    else if nodes.has n.name && !allowOverrides then .error (.duplicate n.name)
    else .ok (nodes.set n.name n)) []

/-- `create_function_graph`, graph.py:145-187. `any` is `typing.Any`. -/
def createFunctionGraph (tm : T → T → Bool) (any : T) (config : Dict Name V) (allowOverrides : Bool)
    (fns : List (Node T V)) : Except BuildErr (Graph T V) := do
  let nodes ← collectNodes config allowOverrides fns
  let nodes ← updateDependencies tm false nodes
  return config.keys.foldl (fun (nodes : Graph T V) k =>
    if nodes.has k then nodes else nodes.set k (externalNode k any)) nodes

/-- `FunctionGraph.with_nodes`, graph.py:741-754. -/
def withNodes (tm : T → T → Bool) (g : Graph T V) (extra : Graph T V) : Except BuildErr (Graph T V) :=
  let dup := g.keys.filter (fun k => extra.has k)
  if dup ≠ [] then .error (.duplicates dup)
  else updateDependencies tm true (g.merge extra)

end Verif
