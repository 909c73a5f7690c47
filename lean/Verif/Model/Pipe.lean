import Verif.Model.Decorators

/-!
`@pipe_input`, `@pipe_output` and `@mutate` (`hamilton/function_modifiers/macros.py:317-1619`): chains of functions put before
a parameter or after the result of the decorated function.  Every step becomes a node.
-/
namespace Verif
variable {T V : Type}

/-- `NamespaceType`, macros.py:317: `...`, `None` or a string. -/
inductive NsArg where
  | ellipsis
  | none
  | named (s : Name)
  deriving DecidableEq, Repr

/-- `Applicable`, macros.py:320-368: what `step(fn, *args, **kwargs)` and its modifiers record.  `fn` is the node made from
the function (`Node.from_fn`), its `name` being `__name__`; arguments that are neither `source` nor `value` are literals
(macros.py:627-633) and are written as `SingleDep.value` here.  The conditions `when…` are predicates of the configuration
(macros.py:383-418; the conditions themselves are in `Model/Config`).  `target` is `on_output` (a single name is a list of
one). -/
structure Applicable (T V : Type) where
  fn : Node T V
  args : List (SingleDep V)
  kwargs : Dict Name (SingleDep V)
  resolvers : List (Dict Name V → Bool)
  name : Option Name
  ns : NsArg
  target : Option (List Name)

/-- `step`, macros.py:638-651. -/
def pipeStep (fn : Node T V) (args : List (SingleDep V)) (kwargs : Dict Name (SingleDep V)) : Applicable T V :=
  { fn, args, kwargs, resolvers := [], name := none, ns := .ellipsis, target := none }

/-- `Applicable.named`, macros.py:448-474. -/
def Applicable.named (a : Applicable T V) (name : Name) (ns : NsArg) : Applicable T V :=
  { a with name := some name, ns := match ns with | .none => .none | .named s => .named s | .ellipsis => a.ns }

/-- `Applicable.namespaced`, macros.py:420-435. -/
def Applicable.namespaced (a : Applicable T V) (ns : NsArg) : Applicable T V := { a with ns := ns }

/-- `Applicable.resolves`, macros.py:437-446. -/
def Applicable.resolves (a : Applicable T V) (config : Dict Name V) : Bool := a.resolvers.all (fun r => r config)

/-- `Signature.bind` as used in macros.py:564-570 and 621: positional arguments go to the parameters in order, the others by
keyword.  Simplification: there are no keyword-only parameters. -/
def bindSignature (params : Dict Name (T × DepType)) (args : List (SingleDep V)) (kwargs : Dict Name (SingleDep V)) :
    Except UserErr (Dict Name (SingleDep V)) :=
  if params.length < args.length then .error "TypeError"
  else if kwargs.keys.any (fun k => !params.has k) then .error "TypeError"
  else if (params.keys.take args.length).any (fun k => kwargs.has k) then .error "TypeError"
  else if (params.drop args.length).any (fun p => decide (p.2.2 = .required) && !kwargs.has p.1) then .error "TypeError"
  else .ok (params.keys.zip args ++
    (params.keys.drop args.length).filterMap (fun k => (kwargs.get? k).map (fun d => (k, d))))

/-- The sources among the bound arguments, macros.py:628-629. -/
def upstreamInputs (bound : Dict Name (SingleDep V)) : Dict Name Name :=
  bound.filterMap (fun p => match p.2 with | .source s => some (p.1, s) | .value _ => none)

/-- The literals among the bound arguments, macros.py:630-633. -/
def literalInputs (bound : Dict Name (SingleDep V)) : Dict Name V :=
  bound.filterMap (fun p => match p.2 with | .source _ => none | .value v => some (p.1, v))

/-- `Applicable.bind_function_args`, macros.py:608-635: the chained value is the first positional argument. -/
def Applicable.bindFunctionArgs (a : Applicable T V) (current : Name) : Except UserErr (Dict Name Name × Dict Name V) :=
  match bindSignature a.fn.inputTypes (.source current :: a.args) a.kwargs with
  | .error e => .error e
  | .ok bound => .ok (upstreamInputs bound, literalInputs bound)

/-- `{v: k for k, v in input_names.items()}`, node.py:366. -/
def reverseNames (names : Dict Name Name) : Dict Name Name := names.foldl (fun d p => d.set p.2 p.1) []

/-- `{reverse_input_names.get(k, k): v for k, v in kwargs.items()}`, node.py:367-368. -/
def renameKwargs (rev : Dict Name Name) (kw : Dict Name V) : Dict Name V :=
  kw.foldl (fun d p => d.set ((rev.get? p.1).getD p.1) p.2) []

/-- `new_input_types`, node.py:375-377. -/
def reassignTypes (names : Dict Name Name) (values : Dict Name V) (params : Dict Name (T × DepType)) :
    Dict Name (T × DepType) :=
  params.foldl (fun d p => if values.has p.1 then d else d.set ((names.get? p.1).getD p.1) p.2) []

/-- `Node.reassign_inputs`, node.py:347-380. -/
def reassignInputs (names : Dict Name Name) (values : Dict Name V) (n : Node T V) : Node T V :=
  { n with
    inputTypes := reassignTypes names values n.inputTypes
    fn := fun kw => n.fn (renameKwargs (reverseNames names) (kw.merge values)) }

/-- The generated name of a step, macros.py:1385-1395: `count` is how often the function occurred before. -/
def autoName (fnName : Name) (count : Nat) : Name :=
  "with" ++ (if fnName.startsWith "_" then "" else "_") ++ fnName ++ (if count = 0 then "" else "_" ++ toString count)

/-- A name in a namespace: `Applicable.resolve_namespace` (macros.py:594-606) and `Node.name` (node.py:166-168). -/
def inNs (ns : NsArg) (fnName name : Name) : Name :=
  match ns with
  | .ellipsis => fnName ++ "." ++ name
  | .named s => s ++ "." ++ name
  | .none => name

/-- The namespace a step ends up with: that of the decorator unless it is `...`, macros.py:1380-1383. -/
def stepNs (ns : NsArg) (a : Applicable T V) : NsArg :=
  match ns with
  | .ellipsis => a.ns
  | .none => (a.namespaced .none).ns
  | .named s => (a.namespaced (.named s)).ns

/-- The node of a step, macros.py:1385-1407. -/
def stepNode (ns : NsArg) (fnName : Name) (count : Nat) (target : Name) (a : Applicable T V) : Except UserErr (Node T V) :=
  match a.bindFunctionArgs target with
  | .error e => .error e
  | .ok b =>
    .ok (reassignInputs b.1 b.2
      { a.fn with name := inNs (stepNs ns a) fnName (a.name.getD (autoName a.fn.name count)) })

/-- `chain_transforms`, macros.py:1359-1408: the nodes and the name of the last one.  `counts` is `fn_count`; `fnName` is the
name of the decorated function. -/
def chainTransforms (ns : NsArg) (config : Dict Name V) (fnName : Name) :
    List (Applicable T V) → Name → Dict Name Nat → Except UserErr (List (Node T V) × Name)
  | [], target, _ => .ok ([], target)
  | a :: as, target, counts =>
    if a.resolves config then
      match stepNode ns fnName ((counts.get? a.fn.name).getD 0) target a with
      | .error e => .error e
      | .ok n =>
        match chainTransforms ns config fnName as n.name (counts.set a.fn.name ((counts.get? a.fn.name).getD 0 + 1)) with
        | .error e => .error e
        | .ok r => .ok (n :: r.1, r.2)
    else chainTransforms ns config fnName as target counts

/-! ### `@pipe_input` -/

/-- `pipe_input.__init__`, macros.py:868-912. -/
structure PipeInput (T V : Type) where
  transforms : List (Applicable T V)
  ns : NsArg
  onInput : Option Name

/-- `NodeInjector.find_injectable_params`, base.py:239-257 (only the names). -/
def injectableParams (nodes : List (Node T V)) : List Name :=
  (nodes.flatMap (fun n => n.inputTypes.keys)).filter (fun p => !(nodes.map (·.name)).contains p)

/-- `_distribute_transforms_to_parameters` and `_create_valid_parameters_transforms_mapping`, macros.py:949-996: the parameter
that is piped.  `sig` are the parameters of the decorated function. -/
def PipeInput.parameter (p : PipeInput T V) (sig params : List Name) : Except UserErr Name :=
  let chosen := match p.onInput with
    | some t => if params.contains t then some t else none
    | none => none
  match chosen with
  | some t => if sig.contains t then .ok t else .error "InvalidDecoratorException"
  | none =>
    match sig with
    | [] => .error "IndexError"
    | first :: _ => if params.contains first then .ok first else .error "InvalidDecoratorException"

/-- `NodeInjector.transform_dag` with `pipe_input.inject_nodes`, base.py:259-280 and macros.py:1011-1044.  As there is one
parameter only, the namespace is that of the decorator. -/
def pipeInput (p : PipeInput T V) (config : Dict Name V) (fnName : Name) (sig : List Name) (nodes : List (Node T V)) :
    Except UserErr (List (Node T V)) :=
  match p.parameter sig (injectableParams nodes) with
  | .error e => .error e
  | .ok param =>
    match chainTransforms p.ns config fnName p.transforms param [] with
    | .error e => .error e
    | .ok r =>
      .ok (nodes.map (fun n => if n.inputTypes.has param then reassignInputs [(param, r.2)] [] n else n) ++ r.1)

/-! ### `@pipe_output` -/

/-- `pipe_output.__init__`, macros.py:1218-1257. `onOutput` is its target (a single name is a list of one). -/
structure PipeOutput (T V : Type) where
  transforms : List (Applicable T V)
  ns : NsArg
  onOutput : Option (List Name)

/-- `pipe_output._filter_individual_target`, macros.py:1259-1278. -/
def PipeOutput.selected (p : PipeOutput T V) (name : Name) : List (Applicable T V) :=
  p.transforms.filter (fun a => match a.target with | none => true | some ts => ts.contains name)

/-- `__identity`, macros.py:1307-1308, as a function node; `typing.Any` is `any`. -/
def identityFn (any : T) : Node T V :=
  { name := "__identity", typ := any, kind := .standard, inputTypes := [("foo", (any, .required))],
    dependencies := [], dependedOnBy := [],
    fn := fun kw => match kw.get? "foo" with | none => .error "TypeError" | some v => .ok v }

/-- The namespace given to the chain, macros.py:1295-1300. -/
def PipeOutput.chainNs (p : PipeOutput T V) (name : Name) : NsArg :=
  match p.ns with
  | .none => .none
  | .ellipsis => .named name
  | .named s => .named s

/-- `pipe_output.transform_node`, macros.py:1280-1333.  For a coroutine function the closing step is `async_function`, which
takes only `**kwargs` and has no return annotation, so that `Node.from_fn` raises (node.py:279-281). -/
def pipeOutputNode (any : T) (p : PipeOutput T V) (config : Dict Name V) (fnName : Name) (isAsync : Bool) (n : Node T V) :
    Except UserErr (List (Node T V)) :=
  match p.selected n.name with
  | [] => .ok [n]
  | ts =>
    if isAsync then .error "ValueError"
    else
      match chainTransforms (p.chainNs n.name) config fnName (ts ++ [(pipeStep (identityFn any) [] []).named fnName .ellipsis])
          (n.name ++ ".raw") [] with
      | .error e => .error e
      | .ok r =>
        match r.1.reverse with
        | last :: prev :: rest =>
          .ok ({ n with name := n.name ++ ".raw" } :: (prev :: rest).reverse ++ [{ last with name := n.name, typ := prev.typ }])
        | _ => .ok [n]

/-- `NodeTransformer.select_nodes`, base.py:438-466, for the targets that `pipe_output` accepts.  The tag
`hamilton.non_final_node` is not modelled here (see `Model/Targets`). -/
def selectOutputs (target : Option (List Name)) (nodes : List (Node T V)) : Except UserErr (List (Node T V)) :=
  match target with
  | none => .ok (nodes.filter (fun n => !(nodes.flatMap (fun m => m.inputTypes.keys)).contains n.name))
  | some ts =>
    let out := nodes.filter (fun n => ts.contains n.name)
    if out.length ≠ ts.length then .error "InvalidDecoratorException" else .ok out

/-- `transform_targets`, base.py:482-499. -/
def pipeTargets (f : Node T V → Except UserErr (List (Node T V))) : List (Node T V) → Except UserErr (List (Node T V))
  | [] => .ok []
  | n :: ns =>
    match f n with
    | .error e => .error e
    | .ok l =>
      match pipeTargets f ns with
      | .error e => .error e
      | .ok r => .ok (l ++ r)

/-- `NodeTransformer.transform_dag` of a `pipe_output`, base.py:501-516.  Nodes are compared by name (a function's nodes have
different names; `Node.__eq__` is in `Model/Targets`). -/
def pipeOutput (any : T) (p : PipeOutput T V) (config : Dict Name V) (fnName : Name) (isAsync : Bool)
    (nodes : List (Node T V)) : Except UserErr (List (Node T V)) :=
  match selectOutputs p.onOutput nodes with
  | .error e => .error e
  | .ok chosen =>
    match pipeTargets (pipeOutputNode any p config fnName isAsync) chosen with
    | .error e => .error e
    | .ok l => .ok (nodes.filter (fun n => !(chosen.map (·.name)).contains n.name) ++ l)

/-- Several `@pipe_output` on one function, base.py:824-826. -/
def pipeOutputs (any : T) (config : Dict Name V) (fnName : Name) (isAsync : Bool) :
    List (PipeOutput T V) → List (Node T V) → Except UserErr (List (Node T V))
  | [], nodes => .ok nodes
  | p :: ps, nodes =>
    match pipeOutput any p config fnName isAsync nodes with
    | .error e => .error e
    | .ok nodes' => pipeOutputs any config fnName isAsync ps nodes'

/-! ### `@mutate` -/

/-- A module while its functions are being decorated: for every function the `pipe_output`s attached to it, in the order in
which they will be applied (base.py:96-117). -/
abbrev PipeTable (T V : Type) := Dict Name (List (PipeOutput T V))

/-- A target of `@mutate`: the function, and what `apply_to(...)` recorded (macros.py:1411-1423; `fn` is filled in later).
`conds`, `name`, `ns` and `target` come from the modifiers of the placeholder. -/
structure MutateTarget (V : Type) where
  fnName : Name
  kwargs : Dict Name (SingleDep V)
  resolvers : List (Dict Name V → Bool)
  name : Option Name
  ns : NsArg
  target : Option (List Name)

/-- `mutate._create_step`, macros.py:1572-1580. -/
def createStep (mutator : Node T V) (kwargs : Dict Name (SingleDep V)) (t : MutateTarget V) : Applicable T V :=
  { fn := mutator, args := [], kwargs := if t.kwargs.isEmpty then kwargs else t.kwargs,
    resolvers := t.resolvers, name := t.name, ns := t.ns, target := t.target }

/-- One round of the loop of `mutate.__call__`, macros.py:1603-1617: the step is appended to every `pipe_output` the function
has, or a new one is added. -/
def mutateOne (tbl : PipeTable T V) (a : Applicable T V) (fnName : Name) : PipeTable T V :=
  match tbl.get? fnName with
  | none => tbl.set fnName [{ transforms := [a], ns := .ellipsis, onOutput := none }]
  | some [] => tbl.set fnName [{ transforms := [a], ns := .ellipsis, onOutput := none }]
  | some (p :: ps) => tbl.set fnName ((p :: ps).map (fun q => { q with transforms := q.transforms ++ [a] }))

/-- `mutate.__call__`, macros.py:1582-1619, for targets of the same module (macros.py:1561-1570). -/
def mutate (kwargs : Dict Name (SingleDep V)) (targets : List (MutateTarget V)) (mutator : Node T V) (tbl : PipeTable T V) :
    PipeTable T V :=
  targets.foldl (fun tbl t => mutateOne tbl (createStep mutator kwargs t) t.fnName) tbl

end Verif
