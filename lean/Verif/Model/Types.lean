import Verif.Model.Node

/-!
Type compatibility: `hamilton/htypes.py` (`_safe_subclass` 17-36, `custom_subclass_check` 38-91, `types_match` 115-135,
`get_type_information` 259-271, `check_input_type` 314-373).

Python types are a data type, classes are names, and `issubclass` is a parameter.  `typing_inspect` and `typing` behave as in
Python 3.9 and later.  Simplification: `Callable`, `Literal` and the like are opaque for edges, compared with `==` only, and
`typing.Any` is not a class (it is one since Python 3.11, which matters only for a parameter of type `object`).
-/
namespace Verif

/-- A type annotation. -/
inductive PyTy where
  /-- `typing.Any` -/
  | any
  /-- a class without arguments, e.g. `int`, `list`, `pd.Series`, or a class derived from `Generic` -/
  | cls (c : Name)
  /-- `List[int]` (`ty = true`) or `list[int]` (`ty = false`); with no arguments `typing.List` -/
  | alias (ty : Bool) (origin : Name) (args : List PyTy)
  /-- `Union[…]`, `Optional[…]`, `X | Y` -/
  | union (args : List PyTy)
  /-- a `TypeVar` -/
  | var (n : Name)
  /-- `Annotated[t, …]` -/
  | annotated (t : PyTy) (metas : List PyTy)
  /-- any other object used as an annotation: `Literal[…]`, `Callable[…]`, … -/
  | other (n : Name)
  deriving Repr, Inhabited

/-- What the check needs to know about classes: `issubclass(a, b)`, and whether a class without arguments derives from `Generic`. -/
structure Hier where
  sub : Name → Name → Bool
  generic : Name → Bool

namespace PyTy

mutual
/-- Python's `==` on annotations: unions are compared as sets, everything else by structure. -/
def eq : PyTy → PyTy → Bool
  | any, any => true
  | cls a, cls b => a == b
  | alias t a as, alias u b bs => t == u && a == b && eqs as bs
  | union as, union bs => allIn as bs && bs.all (coveredBy as)
  | var a, var b => a == b
  | annotated a as, annotated b bs => eq a b && eqs as bs
  | other a, other b => a == b
  | _, _ => false
/-- Equality of tuples of annotations. -/
def eqs : List PyTy → List PyTy → Bool
  | [], [] => true
  | a :: as, b :: bs => eq a b && eqs as bs
  | _, _ => false
/-- Every member of the first list equals a member of the second. -/
def allIn : List PyTy → List PyTy → Bool
  | [], _ => true
  | a :: as, bs => bs.any (eq a) && allIn as bs
/-- Some member of the list equals `b`. -/
def coveredBy : List PyTy → PyTy → Bool
  | [], _ => false
  | a :: as, b => eq a b || coveredBy as b
end

mutual
/-- Number of nodes of the annotation. -/
def size : PyTy → Nat
  | alias _ _ args => 1 + sizes args
  | union args => 1 + sizes args
  | annotated t ms => 1 + size t + sizes ms
  | _ => 1
def sizes : List PyTy → Nat
  | [] => 0
  | a :: as => size a + sizes as
end

/-- `typing.get_args`. -/
def args : PyTy → List PyTy
  | alias _ _ as => as
  | union as => as
  | annotated t ms => t :: ms
  | _ => []

/-- `get_type_information(t)[0]`, htypes.py:259-271. -/
def strip : PyTy → PyTy
  | annotated t _ => t
  | t => t

/-- `typing_inspect.is_typevar`. -/
def isVar : PyTy → Bool
  | var _ => true
  | _ => false

/-- `typing_inspect.is_union_type`. -/
def isUnion : PyTy → Bool
  | union _ => true
  | _ => false

/-- `is_generic_type(t) or is_tuple_type(t)`, htypes.py:61-68. -/
def isGeneric (H : Hier) : PyTy → Bool
  | cls c => H.generic c
  | alias .. => true
  | annotated .. => true
  | _ => false

/-- `requested_origin_type` / `param_origin_type`, htypes.py:48-68: the type itself unless it is generic, then
`typing_inspect.get_origin`, which is `None` for a class without arguments. -/
def origin (H : Hier) : PyTy → Option PyTy
  | cls c => if H.generic c then none else some (cls c)
  | alias _ o _ => some (cls o)
  | annotated t _ => some t
  | t => some t

end PyTy

/-- `_safe_subclass`, htypes.py:17-36.  (`inspect.isclass(list[int])` is true in some Python versions, but then there are
arguments.) -/
def safeSubclass (H : Hier) : PyTy → PyTy → Bool
  | .cls a, .cls b => H.sub a b
  | _, _ => false

/-- `a == b` where either may be `None`. -/
def optEq : Option PyTy → Option PyTy → Bool
  | none, none => true
  | some a, some b => a.eq b
  | _, _ => false

/-- `_safe_subclass` where either may be `None` (which is not a class). -/
def optSub (H : Hier) : Option PyTy → Option PyTy → Bool
  | some a, some b => safeSubclass H a b
  | _, _ => false

/-- `BASE_ARGS_FOR_GENERICS = (typing.T,)`, htypes.py:14. -/
def baseArgs : List PyTy := [.var "typing.T"]

/-- The arguments match or one side leaves them open, htypes.py:80-89. -/
def argsMatch (r p : List PyTy) : Bool :=
  if !r.isEmpty && !p.isEmpty && !PyTy.eqs r baseArgs && !PyTy.eqs p baseArgs then PyTy.eqs r p else true

/-- `custom_subclass_check`, htypes.py:38-91, with a bound on the depth of the recursion (`typesMatch` passes one that is enough).
Unpacking `_get_args` of a `Parallelizable` or `Collect` into one variable (lines 72 and 75) raises if there is not exactly one
argument; here the result is `false`. -/
def customCheck (H : Hier) : Nat → PyTy → PyTy → Bool
  | 0, _, _ => false
  | f + 1, r, p0 =>
    let p := p0.strip
    if p.eq .any then true
    else if safeSubclass H r p then true
    else if p.isUnion && p.args.any (customCheck H f r) then true
    else
      let hg := r.isGeneric H || p.isGeneric H
      if hg && optEq (r.origin H) (some (.cls "Parallelizable")) then
        match r.args with
        | [a] => customCheck H f a p
        | _ => false
      else if hg && optEq (p.origin H) (some (.cls "Collect")) then
        match p.args with
        | [a] => customCheck H f r a
        | _ => false
      else if optEq (r.origin H) (p.origin H) || optSub H (r.origin H) (p.origin H) then
        if hg then argsMatch r.args p.args else true
      else false

/-- `types_match(param_type, required_node_type)`, htypes.py:115-135. -/
def typesMatch (H : Hier) (p r : PyTy) : Bool :=
  if r.eq .any then true
  else if r.isVar || p.isVar then r.eq p
  else if r.eq p then true
  else customCheck H (r.size + p.size) r p

/-! ### Values given as inputs -/

/-- A value: its class (`type(v)`), what distinguishes it from other values of the class, and the items it yields when iterated. -/
inductive InVal where
  | obj (cls : Name) (tag : Name) (items : List InVal)
  deriving Repr, Inhabited

/-- `type(v)`. -/
def InVal.cls : InVal → Name
  | .obj c _ _ => c

/-- `list(v)`. -/
def InVal.items : InVal → List InVal
  | .obj _ _ is => is

mutual
/-- `check_input_type`, htypes.py:314-373.  `lit n v`: the annotation `n` is a `Literal` that lists `v` (line 345).
`typing_inspect.is_generic_type` is false for `Tuple[…]` and `Callable[…]`, and for a generic class without arguments
`get_origin` is `None`, so only `node_type == type(input_value)` (line 342) can hold.  An `Annotated[c, …]` has the origin `c`. -/
def checkInput (H : Hier) (lit : Name → InVal → Bool) : PyTy → InVal → Bool
  | .any, _ => true
  | .cls c, v => (!H.generic c && H.sub v.cls c) || c == v.cls
  | .var _, _ => true
  | .union as, v => checkAny H lit as v
  | .alias _ o as, v =>
    if o == "tuple" || o == "Callable" then false
    else if o == v.cls then true
    else if (o == "list" || o == "Sequence") && (H.sub v.cls "list" || H.sub v.cls "tuple" || H.sub v.cls "Sequence") then
      checkFirst H lit as v.items
    else if (o == "set" || o == "Iterable") && (H.sub v.cls "set" || H.sub v.cls "Iterable") then
      checkFirst H lit as v.items
    else false
  | .annotated t _, v => match t with
    | .cls c => c != "tuple" && c == v.cls
    | _ => false
  | .other n, v => lit n v
/-- `any([check_input_type(ut, input_value) for ut in union_types])`, line 340. -/
def checkAny (H : Hier) (lit : Name → InVal → Bool) : List PyTy → InVal → Bool
  | [], _ => false
  | a :: as, v => checkInput H lit a v || checkAny H lit as v
/-- Only the first item is looked at, lines 356-360. -/
def checkFirst (H : Hier) (lit : Name → InVal → Bool) : List PyTy → List InVal → Bool
  | a :: _, i :: _ => checkInput H lit a i
  | _, _ => true
end

end Verif
