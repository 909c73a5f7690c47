import Verif.Model.Node

/-!
Decorators that replace one node by several (`hamilton/function_modifiers/expanders.py`, `validation.py`): each is a function
from a node to a list of nodes, whose callables are modelled as functions of their keyword arguments.
-/
namespace Verif
variable {T V : Type}

/-- What the decorators need to know about Python values: lists and dictionaries can be made (expanders.py:202-225), a value
may be a dictionary with string keys (expanders.py:803-807), and a validation result can be made and read
(data_quality/base.py:19-25; only `passes` is kept). -/
structure PyOps (V : Type) where
  mkList : List V → V
  mkDict : Dict Name V → V
  asDict : V → Option (Dict Name V)
  mkResult : Bool → V
  asResult : V → Option Bool

/-- The values made are read back as what they are. -/
structure PyOps.Lawful (ops : PyOps V) : Prop where
  dict : ∀ d, ops.asDict (ops.mkDict d) = some d
  result : ∀ b, ops.asResult (ops.mkResult b) = some b

/-! ### `@extract_fields` -/

/-- `for field in self.fields: if field not in d: d[field] = fill`, expanders.py:805-807. -/
def fillFields (fill : V) : List Name → Dict Name V → Dict Name V
  | [], d => d
  | f :: fs, d => if d.has f then fillFields fill fs d else fillFields fill fs (d.set f fill)

/-- `dict_generator`, expanders.py:802-808 (and its asynchronous twin, 792-798). `fill = none` is `fill_with=None`. With a
fill value, `field not in …` on something that is not a dictionary is taken to be a `TypeError` (simplification: some other
containers support it). The function's dictionary is updated in place in Python; here a new one is returned. -/
def dictGenerator (ops : PyOps V) (fn : Dict Name V → Except UserErr V) (fields : List Name) (fill : Option V)
    (kw : Dict Name V) : Except UserErr V :=
  match fn kw with
  | .error e => .error e
  | .ok v =>
    match fill with
    | none => .ok v
    | some f =>
      match ops.asDict v with
      | none => .error "TypeError"
      | some d => .ok (ops.mkDict (fillFields f fields d))

/-- `extractor_fn`, expanders.py:829-838: called with the single keyword argument named after the dictionary's node.  Its
first parameter is called `field_to_extract`: a keyword argument of that name never reaches `kwargs`. -/
def extractorFn (ops : PyOps V) (nodeName field : Name) (kw : Dict Name V) : Except UserErr V :=
  if nodeName = "field_to_extract" then .error "KeyError"
  else
    match kw.get? nodeName with
    | none => .error "KeyError"
    | some v =>
      match ops.asDict v with
      | none => .error "TypeError"
      | some d =>
        match d.get? field with
        | none => .error "InvalidDecoratorException"
        | some w => .ok w

/-- `extract_fields.transform_node`, expanders.py:774-850. `dictT` is the type `dict`. -/
def extractFields (ops : PyOps V) (dictT : T) (fields : Dict Name T) (fill : Option V) (n : Node T V) : List (Node T V) :=
  { n with fn := dictGenerator ops n.fn fields.keys fill } ::
    fields.map (fun p =>
      { name := p.1, typ := p.2, kind := .standard, inputTypes := [(n.name, (dictT, .required))],
        dependencies := [], dependedOnBy := [], fn := extractorFn ops n.name p.1 })

/-! ### `@check_output` -/

/-- `DataValidationLevel`, data_quality/base.py:14-16. -/
inductive VLevel where
  | warn
  | fail
  deriving DecidableEq, Repr

/-- A validator, data_quality/base.py:28-68: its name, its importance and its `validate`, which may raise. -/
structure Validator (V : Type) where
  name : Name
  level : VLevel
  validate : V → Except UserErr Bool

/-- The names of the validator nodes, validation.py:49-56: the second and later occurrences of a name get a number.
`counts` is `validator_name_count`. -/
def validatorNames (base : Name) : List (Validator V) → Dict Name Nat → List Name
  | [], _ => []
  | v :: vs, counts =>
    let n := base ++ "_" ++ v.name
    let c := (counts.get? n).getD 0 + 1
    (if c > 1 then n ++ "_" ++ toString (c - 1) else n) :: validatorNames base vs (counts.set n c)

/-- `validation_function`, validation.py:45-47: the first (and only) keyword argument is validated. -/
def validationFn (ops : PyOps V) (v : Validator V) (kw : Dict Name V) : Except UserErr V :=
  match kw with
  | [] => .error "IndexError"
  | (_, x) :: _ =>
    match v.validate x with
    | .error e => .error e
    | .ok b => .ok (ops.mkResult b)

/-- The loop of `final_node_callable`, validation.py:85-92, collecting whether each result of importance FAIL passes.
`byName` is `validator_name_map`. -/
def collectFailures (ops : PyOps V) (byName : Dict Name (Validator V)) (kw : Dict Name V) :
    List Name → Except UserErr (List Bool)
  | [] => .ok []
  | n :: ns =>
    match byName.get? n, kw.get? n with
    | some v, some r =>
      match ops.asResult r with
      | none => .error "AttributeError"
      | some b =>
        match collectFailures ops byName kw ns with
        | .error e => .error e
        | .ok bs => if v.level = .warn then .ok bs else .ok (b :: bs)
    | _, _ => .error "KeyError"

/-- `final_node_callable`, validation.py:75-94, with `act_fail_bulk` (data_quality/base.py:91-106); `act_warn`
(data_quality/base.py:71-80) only logs.  Simplification: a validator node called `validator_nodes` or
`validator_name_map` would capture a parameter of the callable; this is not modelled. -/
def finalFn (ops : PyOps V) (rawName : Name) (names : List Name) (byName : Dict Name (Validator V)) (kw : Dict Name V) :
    Except UserErr V :=
  match collectFailures ops byName kw names with
  | .error e => .error e
  | .ok results =>
    if results.any (fun b => !b) then .error "DataValidationError"
    else
      match kw.get? rawName with
      | none => .error "KeyError"
      | some v => .ok v

/-- `BaseDataValidationDecorator.transform_node`, validation.py:26-111. `resultT` is the type `ValidationResult`. -/
def checkOutput (ops : PyOps V) (resultT : T) (validators : List (Validator V)) (n : Node T V) : List (Node T V) :=
  let rawName := n.name ++ "_raw"
  let names := validatorNames n.name validators []
  let pairs := names.zip validators
  let byName : Dict Name (Validator V) := pairs.foldl (fun d p => d.set p.1 p.2) []
  let inputs : Dict Name (T × DepType) :=
    names.foldl (fun d m => d.set m (resultT, .required)) [(rawName, (n.typ, .required))]
  pairs.map (fun p =>
      { name := p.1, typ := resultT, kind := .standard, inputTypes := [(rawName, (n.typ, .required))],
        dependencies := [], dependedOnBy := [], fn := validationFn ops p.2 }) ++
    [ { name := n.name, typ := n.typ, kind := n.kind, inputTypes := inputs, dependencies := [], dependedOnBy := [],
        fn := finalFn ops rawName names byName },
      { name := rawName, typ := n.typ, kind := n.kind, inputTypes := n.inputTypes, dependencies := [], dependedOnBy := [],
        fn := n.fn } ]

/-! ### `@parameterize` -/

/-- `LiteralDependency` and `UpstreamDependency`, function_modifiers/dependencies.py:29-44. -/
inductive SingleDep (V : Type) where
  | value (v : V)
  | source (s : Name)

/-- `ParametrizedDependency`, function_modifiers/dependencies.py:21-118; the members of groups are single dependencies
(dependencies.py:149-182). -/
inductive ParamDep (V : Type) where
  | single (d : SingleDep V)
  | groupList (ds : List (SingleDep V))
  | groupDict (ds : Dict Name (SingleDep V))

/-- `resolved_value`, expanders.py:206-211 and 219-224. -/
def resolveSingle (kw : Dict Name V) : SingleDep V → Except UserErr V
  | .value v => .ok v
  | .source s =>
    match kw.get? s with
    | none => .error "KeyError"
    | some v => .ok v

/-- The list of expanders.py:204-212. -/
def resolveList (kw : Dict Name V) : List (SingleDep V) → Except UserErr (List V)
  | [] => .ok []
  | d :: ds =>
    match resolveSingle kw d with
    | .error e => .error e
    | .ok v =>
      match resolveList kw ds with
      | .error e => .error e
      | .ok vs => .ok (v :: vs)

/-- The dict of expanders.py:215-225 (the keys of the group are distinct: they are keyword arguments). -/
def resolveDict (kw : Dict Name V) : Dict Name (SingleDep V) → Except UserErr (Dict Name V)
  | [] => .ok []
  | (k, d) :: ds =>
    match resolveSingle kw d with
    | .error e => .error e
    | .ok v =>
      match resolveDict kw ds with
      | .error e => .error e
      | .ok vs => .ok ((k, v) :: vs)

/-- What one parameter of the function is given, expanders.py:196-230; `none`: nothing, so that the default applies. -/
def resolveParam (ops : PyOps V) (spec : Dict Name (ParamDep V)) (kw : Dict Name V) (p : Name) :
    Except UserErr (Option V) :=
  match spec.get? p with
  | some (.single d) =>
    match resolveSingle kw d with
    | .error e => .error e
    | .ok v => .ok (some v)
  | some (.groupList ds) =>
    match resolveList kw ds with
    | .error e => .error e
    | .ok vs => .ok (some (ops.mkList vs))
  | some (.groupDict ds) =>
    match resolveDict kw ds with
    | .error e => .error e
    | .ok vs => .ok (some (ops.mkDict vs))
  | none => .ok (kw.get? p)

/-- `new_kwargs`, the loop of expanders.py:194-230. -/
def newKwargs (ops : PyOps V) (spec : Dict Name (ParamDep V)) (kw : Dict Name V) : List Name → Except UserErr (Dict Name V)
  | [] => .ok []
  | p :: ps =>
    match resolveParam ops spec kw p with
    | .error e => .error e
    | .ok o =>
      match newKwargs ops spec kw ps with
      | .error e => .error e
      | .ok rest => .ok (match o with | none => rest | some v => (p, v) :: rest)

/-- The keyword arguments frozen by `functools.partial`, expanders.py:272-275: the literals under the names of the
parameters they replace. -/
def literalKwargs (spec : Dict Name (ParamDep V)) : Dict Name V :=
  spec.filterMap (fun p => match p.2 with | .single (.value v) => some (p.1, v) | _ => none)

/-- `replacement_function` wrapped by `functools.partial`, expanders.py:174-231 and 272-275: the node's keyword arguments
take precedence over the frozen ones.  Simplification: nodes called `upstream_dependencies`, `literal_dependencies`,
`grouped_list_dependencies`, `grouped_dict_dependencies` or `former_inputs` would capture parameters of the function; this
is not modelled. -/
def replacementFn (ops : PyOps V) (spec : Dict Name (ParamDep V)) (n : Node T V) (kw : Dict Name V) : Except UserErr V :=
  match newKwargs ops spec ((literalKwargs spec).merge kw) n.inputTypes.keys with
  | .error e => .error e
  | .ok kw' => n.fn kw'

/-- The sources of a member of a group, expanders.py:256-263. -/
def SingleDep.sources : SingleDep V → List Name
  | .value _ => []
  | .source s => [s]

/-- The loop computing `new_input_types`, expanders.py:233-267. `comp` is `resolve_dependency_type`
(dependencies.py:65-85, 98-118). -/
def newInputTypes (comp : T → T) (spec : Dict Name (ParamDep V)) (params : Dict Name (T × DepType)) :
    Dict Name (T × DepType) :=
  params.foldl (fun acc p =>
    match spec.get? p.1 with
    | some (.single (.source s)) => acc.set s p.2
    | some (.single (.value _)) => acc
    | some (.groupList ds) => (ds.flatMap SingleDep.sources).foldl (fun acc s => acc.set s (comp p.2.1, p.2.2)) acc
    | some (.groupDict ds) =>
      (ds.flatMap (fun q => q.2.sources)).foldl (fun acc s => acc.set s (comp p.2.1, p.2.2)) acc
    | none => acc.set p.1 p.2) []

/-- `parameterize.expand_node`, expanders.py:147-281, for a list of outputs with their specifications; `none` as output is
the placeholder that stands for the function's own name (expanders.py:155-156, used by `@inject`). -/
def parameterize (ops : PyOps V) (comp : T → T) (specs : List (Option Name × Dict Name (ParamDep V))) (n : Node T V) :
    List (Node T V) :=
  specs.map (fun p =>
    { n with name := p.1.getD n.name, inputTypes := newInputTypes comp p.2 n.inputTypes,
             dependencies := [], dependedOnBy := [], fn := replacementFn ops p.2 n })

end Verif
