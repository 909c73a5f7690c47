import Verif.Dict

/-!
Nodes and function graphs.  Mirrors hamilton/node.py:17-213 and the node
dictionary of hamilton/graph.py (`FunctionGraph.nodes`).
-/
namespace Verif

/-- Node names (Python `str`), hamilton/node.py:49. -/
abbrev Name := String

/-- hamilton/node.py:33-41 `DependencyType`. -/
inductive DepType where
  | required
  | optional
  deriving DecidableEq, Repr

/-- hamilton/node.py:17-30 `NodeType`. `PRIOR_RUN` is never constructed in /repo and is omitted. -/
inductive NodeKind where
  | standard
  | external
  | expand
  | collect
  deriving DecidableEq, Repr

/-- An exception raised by user code. Only its identity is kept. -/
abbrev UserErr := String

/-- hamilton/node.py:44-213 `Node`.
`T` is the type of Python type annotations, `V` the type of values.
`dependencies`/`dependedOnBy` hold names instead of object references: objects are
resolved through the graph dictionary.  `fn` is the callable as a pure function of its keyword
arguments (simplification: no side effects); `default_parameter_values`, documentation, tags and
originating functions are left out (they do not influence execution). -/
structure Node (T V : Type) where
  name : Name
  typ : T
  kind : NodeKind
  /-- `input_types`: parameter name ↦ (type, required/optional), node.py:93-118 -/
  inputTypes : Dict Name (T × DepType)
  /-- `_dependencies`, node.py:78 -/
  dependencies : List Name
  /-- `_depended_on_by`, node.py:79 -/
  dependedOnBy : List Name
  /-- `_callable`, node.py:74 -/
  fn : Dict Name V → Except UserErr V

/-- hamilton/node.py `user_defined`: node source is EXTERNAL (node.py:183-186). -/
def Node.userDefined {T V : Type} (n : Node T V) : Bool := n.kind == .external

/-- `FunctionGraph.nodes: Dict[str, Node]`, hamilton/graph.py:145-187. -/
abbrev Graph (T V : Type) := Dict Name (Node T V)

end Verif
