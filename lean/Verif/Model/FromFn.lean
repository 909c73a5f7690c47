import Verif.Model.Build
import Verif.Model.Does
import Verif.Model.Config
import Verif.Model.Driver

/-!
From functions to nodes (C77): `Node.from_fn` and the constructor of `Node` (hamilton/node.py:87-121 and 264-307), `find_functions`
(hamilton/graph_utils.py:6-26), the functions of several modules (hamilton/graph.py:165-168), and calling a Python function with keyword
arguments, which is what a node does.  Functions without decorators: `resolve_nodes` (function_modifiers/base.py:809-834) then gives the one
node of `DefaultNodeCreator` (base.py:625-627).
-/
namespace Verif
variable {T V : Type}

/-- What a local variable of a called function holds: a value, the extra positional arguments, or the extra keyword arguments. -/
inductive Local (V : Type) where
  | val (v : V)
  | args (vs : List V)
  | kwargs (kw : Dict Name V)

/-- A parameter with its annotation (`typing.get_type_hints(fn)`, node.py:105-106). -/
structure FnParam (T V : Type) extends PyParam V where
  hint : Option T

/-- A function object: `__name__`, `__module__`, the parameters, the annotation of the result, and what the body does with its local
variables (simplification as for `Node.fn`: no side effects). -/
structure PyFunc (T V : Type) where
  name : Name
  module : Name
  params : List (FnParam T V)
  ret : Option T
  body : (Name → Option (Local V)) → Except UserErr V

/-- Python: `fn(**kw)` (the rules of the language reference for a call with keyword arguments only). Names that no named parameter has
need `**kwargs` and end up there. -/
def bindArg (params : List (FnParam T V)) (kw : Dict Name V) (p : FnParam T V) : Option (Local V) :=
  match p.kind with
  | .named => ((kw.get? p.name).or p.dflt).map .val
  | .posOnly => p.dflt.map .val
  | .varPos => some (.args [])
  | .varKw => some (.kwargs (kw.filter (fun e => !params.any (fun q => q.kind == .named && q.name == e.1))))

/-- Python: the call `fn(**kw)` raises a `TypeError` or runs the body with its local variables. -/
def PyFunc.call (f : PyFunc T V) (kw : Dict Name V) : Except UserErr V :=
  if f.params.any (fun p => (bindArg f.params kw p).isNone) then .error "TypeError: missing required argument"
  else if !f.params.any (fun p => p.kind == .varKw) &&
      kw.any (fun e => !f.params.any (fun q => q.kind == .named && q.name == e.1)) then
    .error "TypeError: unexpected keyword argument"
  else f.body (fun x => (f.params.find? (fun p => p.name == x)).bind (bindArg f.params kw))

/-- What `from_fn` asks about annotations: origin `Parallelizable`, origin `Collect` (node.py:287-294). -/
structure HintOps (T : Type) where
  parallelizable : T → Bool
  collect : T → Bool

/-- `DependencyType.from_parameter`, node.py:37-41. -/
def FnParam.dep (p : FnParam T V) : DepType := if p.dflt.isNone then .required else .optional

/-- The loop of the constructor over the signature, node.py:107-120. -/
def fnInputTypes : List (FnParam T V) → Except UserErr (Dict Name (T × DepType))
  | [] => .ok []
  | p :: ps => match p.hint with
    | none => .error ("ValueError: Missing type hint for " ++ p.name)
    | some t => match fnInputTypes ps with
      | .error e => .error e
      | .ok d => .ok ((p.name, (t, p.dep)) :: d)

/-- The role of the node, node.py:285-294. -/
def fnKind (ops : HintOps T) (f : PyFunc T V) (ret : T) : NodeKind :=
  if ops.collect ret || f.params.any (fun p => p.hint.any ops.collect) then .collect
  else if ops.parallelizable ret then .expand
  else .standard

/-- `Node.from_fn`, node.py:264-305 (without tags and documentation). The callable of the node is the function itself (line 302). -/
def fromFn (ops : HintOps T) (f : PyFunc T V) : Except UserErr (Node T V) :=
  match f.ret with
  | none => .error ("ValueError: Missing type hint for return value in function " ++ f.name)
  | some t => match fnInputTypes f.params with
    | .error e => .error e
    | .ok inputTypes => .ok { name := f.name, typ := t, kind := fnKind ops f t, inputTypes, dependencies := [], dependedOnBy := [],
                              fn := f.call }

/-- A module: its name and its members that are functions, with the attribute under which they are found, in the order of
`inspect.getmembers` (sorted by attribute). -/
structure FnModule (T V : Type) where
  name : Name
  members : List (Name × PyFunc T V)

/-- `find_functions`, graph_utils.py:10-24. -/
def FnModule.functions (m : FnModule T V) : List (PyFunc T V) :=
  (m.members.filter (fun p => !("_".toList.isPrefixOf p.2.name.toList) && isSubmodule p.2.module m.name)).map (·.2)

/-- The nodes of the functions, graph.py:165-169: the first function that cannot be made a node raises. -/
def nodesOfFns (ops : HintOps T) : List (PyFunc T V) → Except UserErr (List (Node T V))
  | [] => .ok []
  | f :: fs => match fromFn ops f with
    | .error e => .error e
    | .ok n => match nodesOfFns ops fs with
      | .error e => .error e
      | .ok ns => .ok (n :: ns)

/-- What can go wrong when a driver is made from modules. -/
inductive ModulesErr where
  | function (e : UserErr)
  | build (e : BuildErr)

/-- `FunctionGraph.from_modules` → `create_function_graph`, graph.py:145-187 and 717-739, for modules of functions without decorators.
Simplification: functions that config shadows are made nodes first as well (graph.py:169-171), in one pass before the others. -/
def graphFromModules (ops : HintOps T) (tm : T → T → Bool) (any : T) (config : Dict Name V) (allow : Bool) (mods : List (FnModule T V)) :
    Except ModulesErr (FnGraph T V) :=
  match nodesOfFns ops (mods.flatMap FnModule.functions) with
  | .error e => .error (.function e)
  | .ok ns => match createFunctionGraph tm any config allow ns with
    | .error e => .error (.build e)
    | .ok g => .ok ⟨g, config⟩

end Verif
