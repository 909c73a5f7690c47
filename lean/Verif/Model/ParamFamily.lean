import Verif.Model.Decorators

/-!
The family of `@parameterize`: how its members are constructed and what they accept
(`hamilton/function_modifiers/expanders.py`, `hamilton/function_modifiers/dependencies.py`).  What an accepted decorator computes is
in `Verif.Model.Decorators`.
-/
namespace Verif.ParamFamily
variable {V : Type}

/-- Exceptions: `InvalidDecoratorException`, and those Python raises by itself. -/
inductive Err where
  | invalidDecorator
  | valueError
  | typeError
  | keyError
  | indexError
  deriving DecidableEq, Repr

/-- What is passed where a dependency is expected: a `LiteralDependency` or `UpstreamDependency`, a `GroupedDependency`, or any other
object. -/
inductive Arg (V : Type) where
  | single (d : SingleDep V)
  | grouped (d : ParamDep V)
  | other

/-- The dependency, if it is one, expanders.py:118-121. -/
def Arg.dep : Arg V → Option (ParamDep V)
  | .single d => some (.single d)
  | .grouped d => some d
  | .other => none

/-! ### `group` -/

/-- `isinstance(dependency, (LiteralDependency, UpstreamDependency))` for all, dependencies.py:167-172. -/
def singles : List (Arg V) → Option (List (SingleDep V))
  | [] => some []
  | .single d :: l =>
    match singles l with
    | none => none
    | some ds => some (d :: ds)
  | _ :: _ => none

/-- `group`, dependencies.py:149-208.  Keyword arguments have distinct names. -/
def group (args : List (Arg V)) (kwargs : Dict Name (Arg V)) : Except Err (ParamDep V) :=
  if !args.isEmpty && !kwargs.isEmpty then .error .invalidDecorator
  else if !args.isEmpty then
    match singles args with
    | none => .error .invalidDecorator
    | some ds => .ok (.groupList ds)
  else if !kwargs.isEmpty then
    match singles (kwargs.map (·.2)) with
    | none => .error .invalidDecorator
    | some ds => .ok (.groupDict (kwargs.keys.zip ds))
  else .error .invalidDecorator

/-! ### Constructors -/

/-- One value of `**parametrization`: a mapping, or a tuple of a mapping and a docstring. -/
structure Entry (V : Type) where
  mapping : Dict Name (Arg V)
  doc : Option String

/-- `parameterization` and `specified_docstrings` of a decorator. -/
structure Deco (V : Type) where
  specs : Dict Name (Dict Name (ParamDep V))
  docs : Dict Name String

/-- `parameterize.PLACEHOLDER_PARAM_NAME`, expanders.py:95. -/
def placeholder : Name := "__<function_name>"

/-- `parameterize.RESERVED_KWARG`, expanders.py:88. -/
def reserved : Name := "output_name"

/-- The dependencies of a mapping. -/
def deps (m : Dict Name (Arg V)) : Dict Name (ParamDep V) := m.filterMap (fun p => p.2.dep.map (fun d => (p.1, d)))

/-- `parameterize.__init__`, expanders.py:97-127. -/
def initParameterize (p : Dict Name (Entry V)) : Except Err (Deco V) :=
  if p.any (fun e => e.2.mapping.any (fun q => q.2.dep.isNone)) then .error .invalidDecorator
  else .ok ⟨p.map (fun e => (e.1, deps e.2.mapping)),
    p.filterMap (fun e => e.2.doc.map (fun d => (e.1, d)))⟩

/-- A key of `assigned_output`, or a value of `variable_inputs`: a pair of an output and a docstring, a tuple of another length, or
no tuple. -/
inductive OutDoc where
  | pair (output doc : String)
  | wrongLength
  | noTuple
  deriving DecidableEq, Repr

/-- A dict comprehension whose keys are unpacked from pairs: the last one with a name wins, a tuple of another length cannot be
unpacked. -/
def comprehension (make : V → Arg V') (parameter : Name) : List (OutDoc × V) → Dict Name (Entry V') → Except Err (Dict Name (Entry V'))
  | [], acc => .ok acc
  | (.pair o d, v) :: l, acc => comprehension make parameter l (acc.set o ⟨[(parameter, make v)], some d⟩)
  | _ :: _, _ => .error .valueError

/-- `parameterize_values.__init__`, expanders.py:427-445; the keys of the dictionary are distinct pairs. -/
def initValues (parameter : Name) (assigned : List (OutDoc × V)) : Except Err (Deco V) :=
  if assigned.any (fun e => e.1 == .noTuple) then .error .invalidDecorator
  else
    match comprehension (fun v => Arg.single (.value v)) parameter assigned [] with
    | .error e => .error e
    | .ok p => initParameterize p

/-- `parameterize_sources.__init__`, expanders.py:479-512. -/
def initSources (p : Dict Name (Dict Name Name)) : Except Err (Deco V) :=
  if p.isEmpty then .error .valueError
  else if p.any (fun e => e.2.isEmpty) then .error .valueError
  else initParameterize (p.map (fun e => (e.1, ⟨e.2.map (fun q => (q.1, .single (.source q.2))), none⟩)))

/-- `parametrized_input.__init__`, expanders.py:525-553: from inputs to pairs of an output and a docstring. -/
def initInput (parameter : Name) (variableInputs : Dict Name OutDoc) : Except Err (Deco V) :=
  if variableInputs.any (fun e => e.2 == .noTuple) then .error .invalidDecorator
  else
    match comprehension (fun s => Arg.single (.source s)) parameter (variableInputs.map (fun e => (e.2, e.1))) [] with
    | .error e => .error e
    | .ok p => initParameterize p

/-- `inject.__init__`, expanders.py:983-989. -/
def initInject (m : Dict Name (Arg V)) : Except Err (Deco V) := initParameterize [(placeholder, ⟨m, none⟩)]

/-! ### Functions -/

/-- Type annotations: `None`, a class, a generic alias like `List[int]` with its origin, a union.  Unions are flat in Python. -/
inductive Hint where
  | none
  | cls (name : String)
  | alias (origin : String) (args : List Hint)
  | union (args : List Hint)

/-- A piece of a docstring read as a template: text, a field that is a plain name, or something that cannot be formatted (a brace on
its own, a field without a name, with attributes or with a format that does not apply). Simplification: Python's parsing of templates is
not modelled. -/
inductive Piece where
  | text (s : String)
  | field (name : Name)
  | bad
  deriving DecidableEq, Repr

/-- The decorated function: its name, its docstring, and its parameters with their annotations.  Simplification: every parameter is
annotated (otherwise `type_hints[param]` raises a KeyError, or the node cannot be made). -/
structure Fn where
  name : Name
  doc : Option (List Piece)
  params : Dict Name Hint

/-- `IdentityDict`, expanders.py:371-374 and 385-399: what a field of the template is replaced by. `shown` is `str` of a value. -/
def fieldText (shown : V → String) (output : Name) (spec : Dict Name (ParamDep V)) (f : Name) : String :=
  if f = reserved then output
  else
    match spec.get? f with
    | some (.single (.value v)) => shown v
    | some (.single (.source s)) => s
    | _ => f

/-- `doc.format_map`, expanders.py:395-400. -/
def render (field : Name → String) : List Piece → Except Err String
  | [] => .ok ""
  | .text s :: ps =>
    match render field ps with
    | .error e => .error e
    | .ok t => .ok (s ++ t)
  | .field f :: ps =>
    match render field ps with
    | .error e => .error e
    | .ok t => .ok (field f ++ t)
  | .bad :: _ => .error .valueError

/-- Is this parameter replaced by a literal or by a source? -/
def isSingle (spec : Dict Name (ParamDep V)) (p : Name) : Bool :=
  match spec.get? p with
  | some (.single _) => true
  | _ => false

/-- `parameterizations` of expanders.py:381-383: the placeholder stands for the function. -/
def named (d : Deco V) (fn : Fn) : Dict Name (Dict Name (ParamDep V)) :=
  match d.specs.get? placeholder with
  | none => d.specs
  | some spec => (d.specs.del placeholder).set fn.name spec

/-- `format_doc_string`, expanders.py:361-400. A parameter called like the reserved name would be passed twice (line 397). -/
def formatDoc (shown : V → String) (d : Deco V) (fn : Fn) (output : Name) : Except Err (Option String) :=
  match d.docs.get? output with
  | some s => .ok (some s)
  | none =>
    match fn.doc with
    | none => .ok none
    | some pieces =>
      match (named d fn).get? output with
      | none => .error .keyError
      | some spec =>
        if isSingle spec reserved then .error .typeError
        else
          match render (fieldText shown output spec) pieces with
          | .error e => .error e
          | .ok s => .ok (some s)

/-! ### `validate` -/

/-- `typing_inspect.is_optional_type`: `None` itself, or a union with it. -/
def Hint.isOptional : Hint → Bool
  | .none => true
  | .union args => args.any (fun a => match a with | .none => true | _ => false)
  | _ => false

/-- `typing_inspect.get_args`. -/
def Hint.args : Hint → List Hint
  | .alias _ args => args
  | .union args => args
  | _ => []

/-- Pulling the type out of `Optional`, expanders.py:320-321, dependencies.py:67-70 and 100-103. -/
def Hint.unwrap (h : Hint) : Except Err Hint :=
  if h.isOptional then
    match h.args with
    | [] => .error .indexError
    | a :: _ => .ok a
  else .ok h

/-- `args[0] != str`, expanders.py:353. -/
def strFirst : List Hint → Bool
  | .cls c :: _ => c == "str"
  | _ => false

/-- May a parameter with this annotation be a group? expanders.py:322-355; a class is not generic, so that it is refused. -/
def groupHint : ParamDep V → Hint → Bool
  | .single _, _ => true
  | .groupList _, .alias origin args => origin == "list" && args.length == 1
  | .groupList _, _ => false
  | .groupDict _, .alias origin args =>
    origin == "dict" && args.length == 2 && strFirst args
  | .groupDict _, _ => false

/-- The loop over a mapping, expanders.py:318-355: whether all annotations are fine. -/
def checkHints (fn : Fn) : Dict Name (ParamDep V) → Except Err Bool
  | [] => .ok true
  | (p, d) :: l =>
    match fn.params.get? p with
    | none => .error .keyError
    | some h =>
      match h.unwrap with
      | .error e => .error e
      | .ok h' =>
        match checkHints fn l with
        | .error e => .error e
        | .ok b => .ok (groupHint d h' && b)

/-- The outer loop, expanders.py:312-360. -/
def checkAllHints (fn : Fn) : Dict Name (Dict Name (ParamDep V)) → Except Err Unit
  | [] => .ok ()
  | (_, m) :: l =>
    match checkHints fn m with
    | .error e => .error e
    | .ok false => .error .invalidDecorator
    | .ok true => checkAllHints fn l

/-- The loop over the docstrings, expanders.py:286-296: only a KeyError is turned into an `InvalidDecoratorException`. -/
def checkDocs (shown : V → String) (d : Deco V) (fn : Fn) : List Name → Except Err Unit
  | [] => .ok ()
  | o :: l =>
    match formatDoc shown d fn (if o = placeholder then fn.name else o) with
    | .error .keyError => .error .invalidDecorator
    | .error e => .error e
    | .ok _ => checkDocs shown d fn l

/-- `parameterize.validate`, expanders.py:283-360. -/
def validate (shown : V → String) (d : Deco V) (fn : Fn) : Except Err Unit :=
  match checkDocs shown d fn d.specs.keys with
  | .error e => .error e
  | .ok () =>
    if fn.params.has reserved then .error .invalidDecorator
    else if d.specs.any (fun e => e.2.any (fun q => !fn.params.has q.1)) then .error .invalidDecorator
    else checkAllHints fn d.specs

/-! ### `expand_node` -/

/-- The one argument of a sequence, dependencies.py:71-85. Simplification: only the origin `list` is known to be a sequence. -/
def listElement : Hint → Except Err Hint
  | .alias "list" [a] => .ok a
  | _ => .error .invalidDecorator

/-- The second argument of a mapping from strings, dependencies.py:104-118. Simplification: only the origin `dict` is known to be a
mapping, and only `str` to be a subclass of `str`. -/
def dictElement : Hint → Except Err Hint
  | .alias "dict" [.cls "str", a] => .ok a
  | _ => .error .invalidDecorator

/-- `GroupedListDependency.resolve_dependency_type` and `GroupedDictDependency.resolve_dependency_type`, dependencies.py:64-85 and
97-118. -/
def resolveType : ParamDep V → Hint → Except Err Hint
  | .single _, h => .ok h
  | .groupList _, h =>
    match h.unwrap with
    | .error e => .error e
    | .ok h' => listElement h'
  | .groupDict _, h =>
    match h.unwrap with
    | .error e => .error e
    | .ok h' => dictElement h'

/-- The type of a component of a list or dictionary. -/
def component (h : Hint) : Hint :=
  match h.unwrap with
  | .ok (.alias _ args) => args.getLast?.getD h
  | _ => h

/-- Do the types of the groups resolve?  The loop of expanders.py:238-267. -/
def resolveAll (spec : Dict Name (ParamDep V)) : Dict Name (Hint × DepType) → Except Err Unit
  | [] => .ok ()
  | (p, t) :: l =>
    match spec.get? p with
    | none => resolveAll spec l
    | some d =>
      match resolveType d t.1 with
      | .error e => .error e
      | .ok _ => resolveAll spec l

/-- `parameterize.expand_node`, expanders.py:147-281: the nodes, each with its docstring. -/
def expandNode (ops : PyOps V) (shown : V → String) (d : Deco V) (fn : Fn) (n : Node Hint V) :
    Dict Name (Dict Name (ParamDep V)) → Except Err (List (Node Hint V × Option String))
  | [] => .ok []
  | (o, spec) :: l =>
    match formatDoc shown d fn (if o = placeholder then n.name else o) with
    | .error e => .error e
    | .ok doc =>
      match resolveAll spec n.inputTypes with
      | .error e => .error e
      | .ok () =>
        match expandNode ops shown d fn n l with
        | .error e => .error e
        | .ok rest =>
          .ok ((parameterize ops component [(if o = placeholder then none else some o, spec)] n).map (fun m => (m, doc)) ++ rest)

/-- What a function with this decorator becomes: `validate` when it is decorated (base.py:111-132), `expand_node` when the driver is
built. -/
def decorate (ops : PyOps V) (shown : V → String) (d : Deco V) (fn : Fn) (n : Node Hint V) :
    Except Err (List (Node Hint V × Option String)) :=
  match validate shown d fn with
  | .error e => .error e
  | .ok () => expandNode ops shown d fn n d.specs

end Verif.ParamFamily
