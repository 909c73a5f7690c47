import Verif.Model.Types

/-!
Registering and choosing data adapters: `hamilton/registry.py:209-222`, `hamilton/io/data_adapters.py:63-198`,
`hamilton/function_modifiers/adapters.py:27-134, 269-343, 348-352, 476-480, 506-530` and `hamilton/caching/stores/base.py:17-52`.
-/
namespace Verif

/-- A subclass of `DataLoader` and/or `DataSaver` (io/data_adapters.py:9-198): `key` is `name()`, `types` is
`applicable_types()`, the arguments are the dataclass fields without and with default (lines 63-91).  Simplification: the class
does not override `applies_to`, and is told apart from others by its `qualname`. -/
structure AdapterCls where
  qualname : Name
  key : Name
  canLoad : Bool
  canSave : Bool
  types : List PyTy
  required : List Name
  optional : List Name
  deriving Repr

/-- `LOADER_REGISTRY` and `SAVER_REGISTRY`, registry.py:209-210. -/
structure AdapterRegistry where
  loaders : Dict Name (List AdapterCls) := []
  savers : Dict Name (List AdapterCls) := []

/-- `REGISTRY[key].append(a)` on a `defaultdict(list)`. -/
def appendTo (d : Dict Name (List AdapterCls)) (a : AdapterCls) : Dict Name (List AdapterCls) :=
  d.set a.key ((d.get? a.key).getD [] ++ [a])

/-- `register_adapter`, registry.py:213-222. -/
def registerAdapter (r : AdapterRegistry) (a : AdapterCls) : AdapterRegistry :=
  let r := if a.canLoad then { r with loaders := appendTo r.loaders a } else r
  if a.canSave then { r with savers := appendTo r.savers a } else r

/-- A sequence of registrations. -/
def registerAll (as : List AdapterCls) : AdapterRegistry := as.foldl registerAdapter {}

/-- `custom_subclass_check` with enough depth. -/
def subclassCheck (H : Hier) (r p : PyTy) : Bool := customCheck H (r.size + p.size) r p

/-- `DataLoader.applies_to`, data_adapters.py:134-152. -/
def loaderApplies (H : Hier) (t : PyTy) (a : AdapterCls) : Bool := a.types.any (fun loadTo => subclassCheck H loadTo t)

/-- The members of a union; of another type, the type. -/
def PyTy.members : PyTy → List PyTy
  | .union as => as
  | t => [t]

/-- Removing duplicates, the first of equal types stays. -/
def dedupTypes : List PyTy → List PyTy → List PyTy
  | [], acc => acc
  | t :: ts, acc => dedupTypes ts (if acc.any (fun u => u.eq t) then acc else acc ++ [t])

/-- One type stands for itself, others for their union. -/
def unionOf : List PyTy → PyTy
  | [t] => t
  | ts => .union ts

/-- `typing.Union[tuple(types)]`: unions in it are unfolded, duplicates removed, a single member stands for itself. -/
def mkUnion (types : List PyTy) : PyTy := unionOf (dedupTypes (types.flatMap PyTy.members) [])

/-- `DataSaver.applies_to`, data_adapters.py:177-198. -/
def saverApplies (H : Hier) (t : PyTy) (a : AdapterCls) : Bool :=
  (decide (a.types.length > 1) && (mkUnion a.types).eq t) || a.types.any (fun saveTo => subclassCheck H t saveTo)

/-- `Any in cls.applicable_types()`, adapters.py:117. -/
def hasAny? (a : AdapterCls) : Bool := a.types.any (fun t => t.eq .any)

/-- The loop of `resolve_adapter_class`, adapters.py:109-120, over the reversed classes. -/
def adapterLoop (applies : AdapterCls → Bool) : List AdapterCls → List AdapterCls × List AdapterCls → List AdapterCls × List AdapterCls
  | [], acc => acc
  | a :: as, (applicable, withAny) =>
    adapterLoop applies as
      (if applies a then applicable ++ [a] else applicable, if hasAny? a then withAny ++ [a] else withAny)

/-- `resolve_adapter_class`, adapters.py:100-129. -/
def resolveAdapter (applies : AdapterCls → Bool) (classes : List AdapterCls) : Option AdapterCls :=
  match adapterLoop applies classes.reverse ([], []) with
  | (a :: _, _) => some a
  | ([], a :: _) => some a
  | ([], []) => none

/-- `AdapterFactory.validate`, adapters.py:46-69; `kwargs` are the names of the arguments. -/
def factoryValid (a : AdapterCls) (kwargs : List Name) : Bool :=
  a.required.all (fun k => kwargs.contains k) && kwargs.all (fun k => a.required.contains k || a.optional.contains k)

/-- Choosing a class for a type and validating the arguments, adapters.py:172-181, 328-336 and 518-530. -/
def chooseAdapter (applies : AdapterCls → Bool) (classes : List AdapterCls) (kwargs : List Name) : Except UserErr AdapterCls :=
  match resolveAdapter applies classes with
  | none => .error "InvalidDecoratorException"
  | some a => if factoryValid a kwargs then .ok a else .error "InvalidDecoratorException"

/-- `@load_from.<key>(**kwargs)` on a parameter of type `t`, adapters.py:348-352 and 320-336; `from_.<key>` (materialization.py). -/
def loadFrom (H : Hier) (r : AdapterRegistry) (key : Name) (t : PyTy) (kwargs : List Name) : Except UserErr AdapterCls :=
  match r.loaders.get? key with
  | none => .error "AttributeError"
  | some classes => chooseAdapter (loaderApplies H t) classes kwargs

/-- `@save_to.<key>(**kwargs)` on a node of type `t`, adapters.py:476-480 and 517-530; `to.<key>`. -/
def saveTo (H : Hier) (r : AdapterRegistry) (key : Name) (t : PyTy) (kwargs : List Name) : Except UserErr AdapterCls :=
  match r.savers.get? key with
  | none => .error "AttributeError"
  | some classes => chooseAdapter (saverApplies H t) classes kwargs

/-- `search_data_adapter_registry`, caching/stores/base.py:17-52: the saver and the loader with which the cache stores a value of
class `t` in format `key`. -/
def searchRegistry (H : Hier) (r : AdapterRegistry) (key : Name) (t : PyTy) : Except UserErr (AdapterCls × AdapterCls) :=
  match r.savers.get? key, r.loaders.get? key with
  | some ss, some ls =>
    match ss.find? (fun a => a.types.any (fun u => subclassCheck H t u)) with
    | none => .error "KeyError"
    | some s =>
      match ls.find? (fun a => a.types.any (fun u => subclassCheck H t u)) with
      | none => .error "KeyError"
      | some l => .ok (s, l)
  | _, _ => .error "KeyError"

mutual
/-- `typing.get_type_hints` without `include_extras`: all `Annotated` are removed, at every depth (`_strip_annotations`). -/
def PyTy.stripAll : PyTy → PyTy
  | .alias b o as => .alias b o (PyTy.stripAlls as)
  | .union as => .union (PyTy.stripAlls as)
  | .annotated t _ => t.stripAll
  | t => t
def PyTy.stripAlls : List PyTy → List PyTy
  | [] => []
  | a :: as => a.stripAll :: PyTy.stripAlls as
end

/-- `LoadFromDecorator.validate`, adapters.py:320-336, for a parameter annotated with `t` (line 318: hints without extras). -/
def validateLoadFrom (H : Hier) (r : AdapterRegistry) (key : Name) (t : PyTy) (kwargs : List Name) : Except UserErr AdapterCls :=
  loadFrom H r key t.stripAll kwargs

end Verif
