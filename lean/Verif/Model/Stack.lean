import Verif.Model.Config

/-!
Stacks of decorators on one function: attaching them (`NodeTransformLifecycle.__call__`), grouping them by step of the
decorator lifecycle (`get_node_decorators`), decorators that are made from the configuration (`@resolve`), and turning the
decorated function into nodes (`resolve_nodes`); `hamilton/function_modifiers/base.py:64-841` and `delayed.py`.

What single decorators do is a parameter here (see `Model/Decorators`, `Pipe`, `Subdag`, `Targets`, `Config`).
-/
namespace Verif

/-- The lifecycle names, base.py:171, 207, 306, 356, 542, 599; `dynamic` (base.py:692) is kept apart in `Deco`. -/
inductive DecoKind where
  | resolve | generate | expand | transform | inject | decorate
  deriving DecidableEq, Repr

/-- `allows_multiple` of the base classes, base.py:175, 206, 306, 355, 533, 609. -/
def DecoKind.multiple : DecoKind → Bool
  | .generate => false
  | .expand => false
  | _ => true

variable {F N V : Type}

/-- A decorator object: its class gives `kind`, whether it overrides `allows_multiple` to be `False` (`exclusive`: `@schema.output`,
metadata.py:238-242), `validate` and the configuration it declares (`required = none` and `optional`: base.py:115-137), and the
method of its kind: `resolve` (base.py:148), `generate_nodes` (base.py:183) or `transform_dag`
(base.py:216).  The other two are not used. -/
structure StaticDeco (F N V : Type) where
  kind : DecoKind
  exclusive : Bool := false
  valid : F → Bool
  required : Option (List Name)
  optional : Dict Name V
  resolve : F → Dict Name V → Except UserErr (Option F)
  generate : F → Dict Name V → Except UserErr (List N)
  transformDag : List N → Dict Name V → F → Except UserErr (List N)

/-- A decorator `@resolve(when=..., decorate_with=make)`, delayed.py:109-127: the parameters of `make` without and with
default (`extract_and_validate_params`, delayed.py:20-45; only the keys of the latter are used). -/
structure DynDeco (F N V : Type) where
  required : List Name
  optional : List Name
  make : Dict Name V → Except UserErr (StaticDeco F N V)

/-- A decorator in a stack. -/
inductive Deco (F N V : Type) where
  | static (d : StaticDeco F N V)
  | dynamic (d : DynDeco F N V)

/-- The attributes of a function object that hold decorators: one list for every lifecycle name. -/
structure DecoAttrs (F N V : Type) where
  resolve : List (StaticDeco F N V) := []
  generate : List (StaticDeco F N V) := []
  expand : List (StaticDeco F N V) := []
  transform : List (StaticDeco F N V) := []
  inject : List (StaticDeco F N V) := []
  decorate : List (StaticDeco F N V) := []
  dynamic : List (DynDeco F N V) := []

/-- `getattr(fn, lifecycle_name, [])`. -/
def DecoAttrs.get (a : DecoAttrs F N V) : DecoKind → List (StaticDeco F N V)
  | .resolve => a.resolve
  | .generate => a.generate
  | .expand => a.expand
  | .transform => a.transform
  | .inject => a.inject
  | .decorate => a.decorate

/-- `setattr(fn, lifecycle_name, l)`. -/
def DecoAttrs.put (a : DecoAttrs F N V) (l : List (StaticDeco F N V)) : DecoKind → DecoAttrs F N V
  | .resolve => { a with resolve := l }
  | .generate => { a with generate := l }
  | .expand => { a with expand := l }
  | .transform => { a with transform := l }
  | .inject => { a with inject := l }
  | .decorate => { a with decorate := l }

/-- `NodeTransformLifecycle.__call__`, base.py:94-113. -/
def attachDeco (fn : F) (a : DecoAttrs F N V) : Deco F N V → Except UserErr (DecoAttrs F N V)
  | .dynamic d => .ok { a with dynamic := a.dynamic ++ [d] }
  | .static d =>
    if !d.valid fn then .error "InvalidDecoratorException"
    else if !(a.get d.kind).isEmpty && (!d.kind.multiple || d.exclusive) then .error "ValueError"
    else .ok (a.put (a.get d.kind ++ [d]) d.kind)

/-- A function with a stack of decorators, the innermost first (Python evaluates them in this order). -/
def attachAll (fn : F) : List (Deco F N V) → DecoAttrs F N V → Except UserErr (DecoAttrs F N V)
  | [], a => .ok a
  | d :: ds, a =>
    match attachDeco fn a d with
    | .error e => .error e
    | .ok a' => attachAll fn ds a'

/-- `resolve.resolve`, delayed.py:129-151. `truthy` is Python's truth value. -/
def DynDeco.resolveWith (truthy : V → Bool) (config : Dict Name V) (d : DynDeco F N V) :
    Except UserErr (StaticDeco F N V) :=
  match config.get? powerUserMode with
  | none => .error "KeyError"
  | some v =>
    if !truthy v then .error "InvalidDecoratorException"
    else if d.required.any (fun k => !config.has k) then .error "InvalidDecoratorException"
    else d.make ((d.required ++ d.optional).filterMap (fun k => (config.get? k).map (fun v => (k, v))))

/-- The loop over the dynamic resolvers, base.py:733-735. -/
def resolveDynamic (truthy : V → Bool) (config : Dict Name V) :
    List (DynDeco F N V) → Except UserErr (List (StaticDeco F N V))
  | [] => .ok []
  | d :: ds =>
    match d.resolveWith truthy config with
    | .error e => .error e
    | .ok s =>
      match resolveDynamic truthy config ds with
      | .error e => .error e
      | .ok r => .ok (s :: r)

/-- `all_decorators`, base.py:736-741: the steps in the order of the dictionary of defaults, then the dynamic ones. -/
def allDecorators (a : DecoAttrs F N V) (dyn : List (StaticDeco F N V)) : List (StaticDeco F N V) :=
  a.resolve ++ a.generate ++ a.expand ++ a.transform ++ a.inject ++ a.decorate ++ dyn

/-- `grouped_by_lifecycle_step`, base.py:742-745, for one step; an empty list stands for the default (base.py:723-731). -/
def decoratorsOf (a : DecoAttrs F N V) (dyn : List (StaticDeco F N V)) (k : DecoKind) : List (StaticDeco F N V) :=
  (allDecorators a dyn).filter (fun d => d.kind = k)

/-- `filter_config`, base.py:702-711. -/
def StaticDeco.config [DecidableEq V] (pyFalse : V) (config : Dict Name V) (d : StaticDeco F N V) :
    Except UserErr (Dict Name V) :=
  match resolveConfig pyFalse config d.required d.optional with
  | .error (.missing _) => .error "MissingConfigParametersException"
  | .error (.keyError _) => .error "KeyError"
  | .ok c => .ok c

/-- The loop over the resolvers, base.py:809-813. -/
def runResolve [DecidableEq V] (pyFalse : V) (config : Dict Name V) : List (StaticDeco F N V) → F → Except UserErr (Option F)
  | [], fn => .ok (some fn)
  | d :: ds, fn =>
    match d.config pyFalse config with
    | .error e => .error e
    | .ok c =>
      match d.resolve fn c with
      | .error e => .error e
      | .ok none => .ok none
      | .ok (some fn') => runResolve pyFalse config ds fn'

/-- The creator, base.py:814-815: exactly one (none stands for the default, `Node.from_fn`). -/
def runGenerate [DecidableEq V] (pyFalse : V) (config : Dict Name V) (fromFn : F → Except UserErr (List N)) (fn : F) :
    List (StaticDeco F N V) → Except UserErr (List N)
  | [] => fromFn fn
  | [d] =>
    match d.config pyFalse config with
    | .error e => .error e
    | .ok c => d.generate fn c
  | _ => .error "ValueError"

/-- The loops over injectors, transformers and decorators of nodes, base.py:816-818 and 823-828. -/
def runDag [DecidableEq V] (pyFalse : V) (config : Dict Name V) (fn : F) :
    List (StaticDeco F N V) → List N → Except UserErr (List N)
  | [], nodes => .ok nodes
  | d :: ds, nodes =>
    match d.config pyFalse config with
    | .error e => .error e
    | .ok c =>
      match d.transformDag nodes c fn with
      | .error e => .error e
      | .ok nodes' => runDag pyFalse config fn ds nodes'

/-- The expander, base.py:819-822: at most one. -/
def runExpand [DecidableEq V] (pyFalse : V) (config : Dict Name V) (fn : F) :
    List (StaticDeco F N V) → List N → Except UserErr (List N)
  | [], nodes => .ok nodes
  | [d], nodes => runDag pyFalse config fn [d] nodes
  | _, _ => .error "ValueError"

/-- The nodes of a function, base.py:814-829, after the resolvers. -/
def runStages [DecidableEq V] (pyFalse : V) (config : Dict Name V) (fromFn : F → Except UserErr (List N)) (fn : F)
    (of : DecoKind → List (StaticDeco F N V)) : Except UserErr (List N) :=
  match runGenerate pyFalse config fromFn fn (of .generate) with
  | .error e => .error e
  | .ok n1 =>
    match runDag pyFalse config fn (of .inject) n1 with
    | .error e => .error e
    | .ok n2 =>
      match runExpand pyFalse config fn (of .expand) n2 with
      | .error e => .error e
      | .ok n3 =>
        match runDag pyFalse config fn (of .transform) n3 with
        | .error e => .error e
        | .ok n4 => runDag pyFalse config fn (of .decorate) n4

/-- `resolve_nodes`, base.py:778-833.  The originating function recorded at the end is left out (`Model/Versions`). -/
def resolveNodes [DecidableEq V] (truthy : V → Bool) (pyFalse : V) (config : Dict Name V)
    (fromFn : F → Except UserErr (List N)) (fn : F) (a : DecoAttrs F N V) : Except UserErr (List N) :=
  match resolveDynamic truthy config a.dynamic with
  | .error e => .error e
  | .ok dyn =>
    match runResolve pyFalse config (decoratorsOf a dyn .resolve) fn with
    | .error e => .error e
    | .ok none => .ok []
    | .ok (some fn') => runStages pyFalse config fromFn fn' (decoratorsOf a dyn)

/-- `NodeExpander.transform_dag`, base.py:321-330, given `expand_node`. -/
def expanderDag (expand : N → Dict Name V → F → Except UserErr (List N)) (nodes : List N) (config : Dict Name V) (fn : F) :
    Except UserErr (List N) :=
  match nodes with
  | [n] => expand n config fn
  | _ => .error "ValueError"

/-- Decorating a function and building its nodes. -/
def decorated [DecidableEq V] (truthy : V → Bool) (pyFalse : V) (config : Dict Name V)
    (fromFn : F → Except UserErr (List N)) (fn : F) (stack : List (Deco F N V)) : Except UserErr (List N) :=
  match attachAll fn stack {} with
  | .error e => .error e
  | .ok a => resolveNodes truthy pyFalse config fromFn fn a

end Verif
