import Verif.Model.Decorators

/-!
`@subdag` and `@parameterized_subdag` (`hamilton/function_modifiers/recursive.py`): the nodes of a collection of functions
are copied under a namespace, inputs and configuration become nodes of the namespace, and a final node carries the decorated
function.
-/
namespace Verif
variable {T V : Type}

/-- `assign_namespace`, recursive.py:29-30. -/
def assignNamespace (nodeName namespaceName : Name) : Name := namespaceName ++ "." ++ nodeName

/-- The arguments of the decorator, recursive.py:196-227; `namespaceName` and `finalName` after `_derive_namespace` and
`_derive_name` (recursive.py:406-422). -/
structure SubdagSpec (V : Type) where
  namespaceName : Name
  finalName : Name
  inputs : Dict Name (SingleDep V)
  config : Dict Name V
  externalInputs : List Name

/-- `new_name_map`, recursive.py:318-329. -/
def newNameMap (nodes : List (Node T V)) (s : SubdagSpec V) : Dict Name Name :=
  (nodes.map (·.name) ++ s.inputs.keys ++ s.config.keys).foldl
    (fun d k => d.set k (assignNamespace k s.namespaceName)) []

/-- A dict comprehension `{f(key): key for key in keys}`, recursive.py:337-340 and 382-385. -/
def kwargMapping (f : Name → Name) (keys : List Name) : Dict Name Name := keys.foldl (fun d key => d.set (f key) key) []

/-- `{mapping[kwarg]: value for kwarg, value in kwargs.items()}`, recursive.py:351, 361 and 393-395. The values of `mapping`
are different, so no entry is overwritten. -/
def translateKwargs (mapping : Dict Name Name) : Dict Name V → Except UserErr (Dict Name V)
  | [] => .ok []
  | (k, v) :: t =>
    match mapping.get? k with
    | none => .error "KeyError"
    | some k' =>
      match translateKwargs mapping t with
      | .error e => .error e
      | .ok rest => .ok ((k', v) :: rest)

/-- A node under other names: parameters renamed by `f`, the callable called with the original parameter names.
recursive.py:332-372 (`add_namespace`; `copy_with`) and 374-404.  Simplification: parameters called `_callabl`,
`_kwarg_mapping`, `_new_name` or `_new_name_map` are not modelled (they would be captured by the wrapper). -/
def renameNode (f : Name → Name) (name : Name) (n : Node T V) : Node T V :=
  let mapping := kwargMapping f n.inputTypes.keys
  { n with
    name := name
    inputTypes := mapping.filterMap (fun p => (n.inputTypes.get? p.2).map (fun t => (p.1, t)))
    fn := fun kw => match translateKwargs mapping kw with
      | .error e => .error e
      | .ok kw' => n.fn kw' }

/-- `subdag.add_namespace`, recursive.py:304-372. -/
def addNamespace (nodes : List (Node T V)) (s : SubdagSpec V) : List (Node T V) :=
  let m := newNameMap nodes s
  nodes.map (fun n => renameNode (fun key => (m.get? key).getD key) (assignNamespace n.name s.namespaceName) n)

/-- `create_static_node`, recursive.py:91-108; the node's name carries the namespace (node.py:166-168). -/
def staticNode (typ : T) (name : Name) (value : V) : Node T V :=
  { name, typ, kind := .standard, inputTypes := [], dependencies := [], dependedOnBy := [], fn := fun _ => .ok value }

/-- `create_identity_node`, recursive.py:45-70. -/
def identityNode (source : Name) (typ : T) (name : Name) : Node T V :=
  { name, typ, kind := .standard, inputTypes := [(source, (typ, .required))], dependencies := [], dependedOnBy := [],
    fn := fun kw => match kw with
      | [] => .error "IndexError"
      | (_, v) :: _ => .ok v }

/-- `extract_all_known_types`, recursive.py:73-88. -/
def knownTypes (nodes : List (Node T V)) : Dict Name T :=
  nodes.foldl (fun d n => n.inputTypes.foldl (fun d p => d.set p.1 p.2.1) d) []

/-- One input of `_create_additional_static_nodes`, recursive.py:265-290. `typeOf` is Python's `type` of a value
(recursive.py:33-42). -/
def inputNode (typeOf : V → T) (types : Dict Name T) (ns : Name) (key : Name) : SingleDep V → List (Node T V)
  | .value v => [staticNode (typeOf v) (assignNamespace key ns) v]
  | .source src =>
    match types.get? (assignNamespace key ns) with
    | none => []
    | some t => [identityNode src t (assignNamespace key ns)]

/-- `_create_additional_static_nodes`, recursive.py:258-301. -/
def additionalNodes (typeOf : V → T) (nodes : List (Node T V)) (s : SubdagSpec V) : List (Node T V) :=
  s.inputs.flatMap (fun p => inputNode typeOf (knownTypes nodes) s.namespaceName p.1 p.2) ++
    s.config.map (fun p => staticNode (typeOf p.2) (assignNamespace p.1 s.namespaceName) p.2)

/-- `add_final_node`, recursive.py:374-404; `fn` is the node of the decorated function. -/
def subdagFinal (fn : Node T V) (s : SubdagSpec V) : Node T V :=
  renameNode (fun key => if s.externalInputs.contains key then key else assignNamespace key s.namespaceName) s.finalName fn

/-- `subdag.generate_nodes`, recursive.py:424-437; `nodes` are the nodes collected from the functions with the merged
configuration (recursive.py:250-256, the subject of C38). -/
def subdagNodes (typeOf : V → T) (nodes : List (Node T V)) (s : SubdagSpec V) (fn : Node T V) : List (Node T V) :=
  let renamed := addNamespace nodes s
  renamed ++ additionalNodes typeOf renamed s ++ [subdagFinal fn s]

/-- `_validate_config_inputs`, recursive.py:111-131: no key may be both an input and a configuration key. -/
def subdagValid (s : SubdagSpec V) : Bool := s.config.keys.all (fun k => !s.inputs.has k)

/-- One entry of `**parameterization` of `@parameterized_subdag`, recursive.py:474-477. -/
structure SubdagParams (V : Type) where
  inputs : Dict Name (SingleDep V)
  config : Dict Name V
  externalInputs : Option (List Name)

/-- `_gather_subdag_generators`, recursive.py:572-585. -/
def gatherSubdags (inputs : Dict Name (SingleDep V)) (config : Dict Name V) (external : List Name)
    (params : Dict Name (SubdagParams V)) : List (SubdagSpec V) :=
  params.map (fun p =>
    { namespaceName := p.1, finalName := p.1, inputs := inputs.merge p.2.inputs, config := config.merge p.2.config,
      externalInputs := p.2.externalInputs.getD external })

/-- `parameterized_subdag.generate_nodes`, recursive.py:587-591; `collect` is `collect_nodes` with the subdag's own
configuration merged in (recursive.py:426-427). -/
def parameterizedSubdag (typeOf : V → T) (collect : Dict Name V → List (Node T V)) (inputs : Dict Name (SingleDep V))
    (config : Dict Name V) (external : List Name) (params : Dict Name (SubdagParams V)) (fn : Node T V) : List (Node T V) :=
  (gatherSubdags inputs config external params).flatMap (fun s => subdagNodes typeOf (collect s.config) s fn)

end Verif
