import Verif.Model.Hooks

/-!
Checking values against annotations while a graph runs: `check_instance` (hamilton/htypes.py:377-430) and the lifecycle hook
`FunctionInputOutputTypeChecker` (hamilton/lifecycle/default.py:471-524).

`typing` behaves as in Python 3.11.  Classes are names and `issubclass` is a parameter.
-/
namespace Verif

/-- An annotation, as `check_instance` tells them apart (htypes.py:384-396). -/
inductive RTy where
  /-- `typing.Any` -/
  | any
  /-- a class, or an alias without arguments like `typing.List`, for which `isinstance` works -/
  | cls (c : Name)
  /-- `List[int]`, `dict[str, int]`, `Callable[[int], str]`, `Box[int]`: `__origin__` is a class, `__args__` a tuple -/
  | gen (origin : Name) (args : List RTy)
  /-- `typing.Union[…]`, `Optional[…]` -/
  | union (args : List RTy)
  /-- `X | Y`, which has no `__origin__` -/
  | pipe (args : List RTy)
  /-- `Literal[…]` -/
  | lit (n : Name)
  /-- `Annotated[t, …]`: `__origin__` is `t`, `__args__` is `(t,)` -/
  | annotated (t : RTy)
  /-- the `...` of `Tuple[int, ...]` -/
  | ellipsis
  /-- anything else without `__origin__` that `isinstance` refuses: a `TypeVar`, a `NewType`, a string -/
  | other (n : Name)
  deriving Inhabited

/-- A value: an object that is not a built-in collection, a collection of items, or a dictionary. -/
inductive RVal where
  | obj (cls : Name) (tag : Name)
  | seq (cls : Name) (items : List RVal)
  | map (cls : Name) (pairs : List (RVal × RVal))
  deriving Inhabited

/-- `type(v)`. -/
def RVal.cls : RVal → Name
  | .obj c _ => c
  | .seq c _ => c
  | .map c _ => c

/-- `iter(v)`, htypes.py:424; a dictionary yields its keys, other objects are not looked into. -/
def RVal.items : RVal → List RVal
  | .obj .. => []
  | .seq _ is => is
  | .map _ ps => ps.map (·.1)

/-- `v.items()`, htypes.py:409. -/
def RVal.pairs : RVal → List (RVal × RVal)
  | .map _ ps => ps
  | _ => []

/-- `None`. -/
def RVal.pyNone : RVal := .obj "NoneType" "None"

/-- What the check needs to know about classes and literals: `issubclass(a, b)`, and `v in args` for the arguments of the
`Literal` called `n` (htypes.py:395; an `==` that raises is left out). -/
structure RWorld where
  sub : Name → Name → Bool
  lit : Name → RVal → Bool

/-- The class of an annotation that `isinstance` takes as a member of a union. -/
def RTy.asClass : RTy → Option Name
  | .cls c => some c
  | _ => none

/-- Every one is a class: the classes. -/
def allClasses : List RTy → Option (List Name)
  | [] => some []
  | t :: ts =>
    match t.asClass, allClasses ts with
    | some c, some cs => some (c :: cs)
    | _, _ => none

/-- Python's `isinstance(v, t)`: a class, or a union whose members are classes; anything else raises `TypeError`.
(From Python 3.12 on, a member that is not a class raises only when no class before it matched.) -/
def pyIsinstance (W : RWorld) (v : RVal) : RTy → Except UserErr Bool
  | .cls c => .ok (W.sub v.cls c)
  | .union as =>
    match allClasses as with
    | some cs => .ok (cs.any (W.sub v.cls))
    | none => .error "TypeError: isinstance"
  | .pipe as =>
    match allClasses as with
    | some cs => .ok (cs.any (W.sub v.cls))
    | none => .error "TypeError: isinstance"
  | _ => .error "TypeError: isinstance"

/-- `isinstance(obj, (list, set, tuple))`, htypes.py:422. -/
def isListLike (W : RWorld) (c : Name) : Bool := W.sub c "list" || W.sub c "set" || W.sub c "tuple"

/-- A loop that stops at the first item that does not pass, htypes.py:424-427. -/
def allPass {α : Type} (f : α → Except UserErr Bool) : List α → Except UserErr Bool
  | [] => .ok true
  | x :: xs =>
    match f x with
    | .error e => .error e
    | .ok false => .ok false
    | .ok true => allPass f xs

/-- The body of the loop over a dictionary, htypes.py:411-417: both checks are made before either result is looked at. -/
def pairOk (key value : RVal → Except UserErr Bool) (p : RVal × RVal) : Except UserErr Bool :=
  match key p.1 with
  | .error e => .error e
  | .ok a =>
    match value p.2 with
    | .error e => .error e
    | .ok b => .ok (a && b)

/-- `element_type[i]` when there is no such argument, htypes.py:411, 412, 423. -/
def noArg : RVal → Except UserErr Bool := fun _ => .error "IndexError"

/-- htypes.py:400-430, for an object of the class of the origin: `first` and `second` check against `element_type[0]` and
`element_type[1]`, `hasFirst` tells whether there is an `element_type[0]`. -/
def checkArgs (W : RWorld) (first second : RVal → Except UserErr Bool) (hasFirst : Bool) (v : RVal) : Except UserErr Bool :=
  if W.sub v.cls "dict" then allPass (pairOk first second) v.pairs
  else if isListLike W v.cls then
    if hasFirst then allPass first v.items else .error "IndexError"
  else .error "TypeError: isinstance"

mutual
/-- `check_instance(v, t)`, htypes.py:377-430.  Line 430 is reached by a subscripted generic when the value is no dictionary,
list, set or tuple: `isinstance` then raises. -/
def checkInstance (W : RWorld) : RTy → RVal → Except UserErr Bool
  | .any, _ => .ok true
  | .union as, v => checkInstanceAny W as v
  | .lit n, v => .ok (W.lit n v)
  | .gen o as, v =>
    if W.sub v.cls o then checkArgs W (checkInstance0 W as) (checkInstance1 W as) (!as.isEmpty) v else .ok false
  | .annotated t, v =>
    match pyIsinstance W v t with
    | .error e => .error e
    | .ok false => .ok false
    | .ok true => checkArgs W (checkInstance W t) noArg true v
  | .cls c, v => pyIsinstance W v (.cls c)
  | .pipe as, v => pyIsinstance W v (.pipe as)
  | .ellipsis, _ => .error "TypeError: isinstance"
  | .other _, _ => .error "TypeError: isinstance"
/-- `any(check_instance(obj, t) for t in type_.__args__)`, htypes.py:393. -/
def checkInstanceAny (W : RWorld) : List RTy → RVal → Except UserErr Bool
  | [], _ => .ok false
  | a :: as, v =>
    match checkInstance W a v with
    | .error e => .error e
    | .ok true => .ok true
    | .ok false => checkInstanceAny W as v
/-- `check_instance(v, element_type[0])`, htypes.py:411, 423-425. -/
def checkInstance0 (W : RWorld) : List RTy → RVal → Except UserErr Bool
  | [], _ => .error "IndexError"
  | a :: _, v => checkInstance W a v
/-- `check_instance(v, element_type[1])`, htypes.py:412. -/
def checkInstance1 (W : RWorld) : List RTy → RVal → Except UserErr Bool
  | _ :: b :: _, v => checkInstance W b v
  | _, _ => .error "IndexError"
end

/-! ### The hook -/

/-- One argument, default.py:498-502: `none` if it passes, otherwise the exception. -/
def checkKwarg (W : RWorld) (types : Dict Name (RTy × DepType)) (k : Name) (v : RVal) : Option UserErr :=
  match types.get? k with
  | none => some "KeyError"
  | some (t, _) =>
    match checkInstance W t v with
    | .error e => some e
    | .ok true => none
    | .ok false => some "TypeError: input"

/-- `run_before_node_execution`, default.py:485-502, where `node_input_types` are the types of `node_.input_types`
(lifecycle/api.py:211). -/
def checkKwargs (W : RWorld) (types : Dict Name (RTy × DepType)) : Dict Name RVal → Option UserErr
  | [] => none
  | (k, v) :: rest =>
    match checkKwarg W types k v with
    | some e => some e
    | none => checkKwargs W types rest

/-- `run_after_node_execution`, default.py:504-524; `result` is `None` when the node failed (graph_functions.py:276). -/
def checkResult (W : RWorld) (t : RTy) (result : Option RVal) : Option UserErr :=
  match checkInstance W t (result.getD .pyNone) with
  | .error e => some e
  | .ok true => none
  | .ok false => some "TypeError: output"

/-- `FunctionInputOutputTypeChecker(check_input, check_output)`, default.py:471-524, as a lifecycle adapter. -/
def typeChecker {σ : Type} (W : RWorld) (id : Nat) (checkIn checkOut : Bool) : Adapter RTy RVal σ where
  id := id
  pre := some fun n kw s => (if checkIn then checkKwargs W n.inputTypes kw else none, s)
  post := some fun n _ _ _ result s => (if checkOut then checkResult W n.typ result else none, s)

end Verif
