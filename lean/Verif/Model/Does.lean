import Verif.Model.Node

/-!
`@does` (hamilton/function_modifiers/macros.py:34-226): the body of a function is replaced by a call of another function.
-/
namespace Verif
variable {V : Type}

/-! ### The decorated function must be empty -/

/-- The body of a function: nothing (`pass`, `...`, `return None`), `return c` for a constant `c`, or something else. -/
inductive PyBody where
  | empty
  | ret (c : Name)
  | code (c : Name)

/-- The bytecode (`__code__.co_code`) of a function: "return the constant with index `i`", or something longer.
(CPython 3.8 to 3.13.) -/
inductive PyCode where
  | retConst (i : Nat)
  | long (c : Name)
  deriving DecidableEq

/-- What CPython compiles a function to. The docstring, or else `None`, is the constant with index 0; so `None` has index 0 or
1, and any other constant that is returned has index 1. -/
def compileBody (doc : Bool) : PyBody → PyCode
  | .empty => .retConst (if doc then 1 else 0)
  | .ret _ => .retConst 1
  | .code c => .long c

/-- `ensure_function_empty`, macros.py:44-56: the bytecode is that of `_empty_function` or `_empty_function_with_docstring`
(macros.py:35-41). -/
def isEmptyFn (doc : Bool) (b : PyBody) : Bool :=
  compileBody doc b == compileBody false .empty || compileBody doc b == compileBody true .empty

/-! ### Signatures -/

/-- The kind of a parameter, `inspect.Parameter.kind`; `named` is `POSITIONAL_OR_KEYWORD` or `KEYWORD_ONLY`. -/
inductive ParamKind where
  | named
  | posOnly
  | varPos
  | varKw
  deriving DecidableEq

/-- A parameter, with its default value. -/
structure PyParam (V : Type) where
  name : Name
  kind : ParamKind
  dflt : Option V

/-- `signature.bind(**kw)` does not raise, as used at macros.py:147 (and a call of the function with these keyword arguments
does not raise a `TypeError` either): parameters without default are given by name, and names that are no parameters
need a `**kwargs`. Simplification: a positional-only parameter counts as one that cannot be given. -/
def bindKw (sig : List (PyParam V)) (keys : List Name) : Bool :=
  sig.all (fun p => p.dflt.isSome || p.kind == .varPos || p.kind == .varKw || (p.kind == .named && keys.contains p.name)) &&
  (sig.any (fun p => p.kind == .varKw) || keys.all (fun k => sig.any (fun p => p.kind == .named && p.name == k)))

/-! ### Renaming arguments -/

/-- The body of the loop in `map_kwargs`, macros.py:114-118; `vals` is `argument_mapping.values()`. `none` is a `KeyError`. -/
def mapStep (kw : Dict Name V) (vals : List Name) (out : Dict Name V) (to orig : Name) : Option (Dict Name V) :=
  match kw.get? orig with
  | none => none
  | some v =>
    if vals.contains to then some (out.set to v)
    else if out.has orig then some ((out.del orig).set to v)
    else none

/-- The loop in `map_kwargs`, macros.py:114-118. -/
def mapLoop (kw : Dict Name V) (vals : List Name) : Dict Name Name → Dict Name V → Option (Dict Name V)
  | [], out => some out
  | (to, orig) :: rest, out =>
    match mapStep kw vals out to orig with
    | none => none
    | some out' => mapLoop kw vals rest out'

/-- `does.map_kwargs`, macros.py:101-119. -/
def mapKwargs (kw : Dict Name V) (mapping : Dict Name Name) : Option (Dict Name V) :=
  mapLoop kw (mapping.map (·.2)) mapping kw

/-- The exceptions at decoration time. -/
inductive DoesErr where
  | invalidDecorator
  | keyError
  deriving DecidableEq

/-- A function to be decorated: its parameters and its body. -/
structure DoesFn (V : Type) where
  params : List (PyParam V)
  doc : Bool
  body : PyBody

/-- `does.validate`, macros.py:194-205, with `ensure_function_signature_compatible` (macros.py:153-188) and
`test_function_signatures_compatible` (macros.py:121-151). The names of the parameters stand for the dummy arguments. A
`KeyError` of `map_kwargs` is not caught. -/
def doesValidate (fn : DoesFn V) (repl : List (PyParam V)) (mapping : Dict Name Name) : Option DoesErr :=
  if !isEmptyFn fn.doc fn.body then some .invalidDecorator
  else if fn.params.any (fun p => p.kind != .named) then some .invalidDecorator
  else
    match mapKwargs (fn.params.map fun p => (p.name, ())) mapping with
    | none => some .keyError
    | some dummy => if bindKw repl dummy.keys then none else some .invalidDecorator

/-- The default values of the decorated function, macros.py:214-218. -/
def doesDefaults (params : List (PyParam V)) : Dict Name V := params.filterMap fun p => p.dflt.map fun v => (p.name, v)

/-- `wrapper_function`, macros.py:215-223: what the node computes. `call` is the replacing function as a function of its keyword
arguments, `repl` its signature. -/
def doesCall (fn : DoesFn V) (repl : List (PyParam V)) (call : Dict Name V → Except UserErr V) (mapping : Dict Name Name)
    (kw : Dict Name V) : Except UserErr V :=
  match mapKwargs ((doesDefaults fn.params).merge kw) mapping with
  | none => .error "KeyError"
  | some args => if bindKw repl args.keys then call args else .error "TypeError"

end Verif
