import Verif.Model.Config
import Verif.Model.Fingerprint

/-!
Modules made on the fly (`hamilton/ad_hoc_utils.py`) and the functions a driver finds in them (`hamilton/graph_utils.py`).
Function objects live in a heap, so that copies and originals can be told apart; `sys.modules` maps names to modules. Of a module
only the attributes that are functions are kept. `create_module` (ad_hoc_utils.py:84-115) does the same as `module_from_source`
by way of a file and is left out, as are `linecache` and positional-only or starred parameters.
-/
namespace Verif.TempModule
variable {V : Type}

/-- What `f.__code__`, `f.__globals__` and `f.__closure__` (ad_hoc_utils.py:17) hold of a function: its parameters, the docstring
written in it, and what it does when its parameters have values. -/
structure Code (V : Type) where
  positional : List Name
  kwonly : List Name
  doc : Option String
  run : Dict Name V → Except UserErr V

/-- A function object, with the parts `_copy_func` (ad_hoc_utils.py:15-21) reads or leaves out. `defaults` belong to the last
positional parameters; `attrs` is `__dict__`, where decorators are kept (base.py:104-112); `ann` is the identity of the
`__annotations__` dictionary. -/
structure Fn (V : Type) where
  name : Name
  module : Name
  code : Code V
  defaults : List V
  kwdefaults : Dict Name V
  doc : Option String
  attrs : Dict Name String
  ann : Nat

/-- The functions in memory and `sys.modules`, ad_hoc_utils.py:48-63. -/
structure World (V : Type) where
  fns : List (Fn V)
  mods : Dict Name (Dict Name Nat)

/-- What `create_temporary_module` is given, ad_hoc_utils.py:29: a function, or a callable that has no code. -/
inductive Arg where
  | fn (id : Nat)
  | other
  deriving DecidableEq

/-- The exceptions: ad_hoc_utils.py:17 (AttributeError), 48-49, 53-56 and 57-62 (ValueError), and those of compiling (72) or
running (74) a source. -/
inductive Err where
  | attribute | exists_ | duplicate | underscore | syntax_ | raised
  deriving DecidableEq

/-- `_copy_func`, ad_hoc_utils.py:15-21. `types.FunctionType` takes the docstring from the code and leaves `__kwdefaults__` empty;
`__module__` is set by the caller in any case. -/
def copyFunc (f : Fn V) : Fn V :=
  { name := f.name, module := f.module, code := f.code, defaults := f.defaults, kwdefaults := [], doc := f.code.doc,
    attrs := f.attrs, ann := f.ann }

/-- The attributes every module object has (`hasattr`, ad_hoc_utils.py:53). Simplification: those of `object` are not all
listed; they start with an underscore, too. -/
def reserved : List Name := ["__name__", "__doc__", "__package__", "__loader__", "__spec__", "__dict__", "__class__"]

/-- `str.startswith("_")`, ad_hoc_utils.py:57 and graph_utils.py:20. -/
def underscored (n : Name) : Bool := "_".toList.isPrefixOf n.toList

/-- The loop of `create_temporary_module`, ad_hoc_utils.py:51-62. -/
def fill (module : Name) : List Arg → Dict Name Nat → List (Fn V) → Except Err (Dict Name Nat) × List (Fn V)
  | [], members, heap => (.ok members, heap)
  | .other :: _, _, heap => (.error .attribute, heap)
  | .fn i :: rest, members, heap =>
    match heap[i]? with
    | none => (.error .attribute, heap)
    | some f =>
      if members.has f.name || reserved.contains f.name then (.error .duplicate, heap)
      else if underscored f.name then (.error .underscore, heap)
      else fill module rest (members.set f.name heap.length) (heap ++ [{ copyFunc f with module := module }])

/-- `create_temporary_module`, ad_hoc_utils.py:29-64; the name is the one given or the fresh one of line 26. -/
def create (module : Name) (args : List Arg) (w : World V) : Except Err (Dict Name Nat) × World V :=
  if w.mods.has module then (.error .exists_, w)
  else
    match fill module args [] w.fns with
    | (.error e, heap) => (.error e, { w with fns := heap })
    | (.ok members, heap) => (.ok members, { fns := heap, mods := w.mods.set module members })

/-- A statement of a source: the definition of a function, or an import that binds a function that is there already
(ad_hoc_utils.py:74). -/
inductive Stmt (V : Type) where
  | define (f : Fn V)
  | bind (n : Name) (id : Nat)

/-- A source, ad_hoc_utils.py:67-74: whether it compiles, what it does, and whether it raises after that. -/
structure Source (V : Type) where
  compiles : Bool
  body : List (Stmt V)
  raises : Bool

/-- `exec`, ad_hoc_utils.py:74: a function defined there has the module's name as its `__module__`. -/
def exec (module : Name) : List (Stmt V) → Dict Name Nat → List (Fn V) → Dict Name Nat × List (Fn V)
  | [], members, heap => (members, heap)
  | .define f :: rest, members, heap =>
    exec module rest (members.set f.name heap.length) (heap ++ [{ f with module := module }])
  | .bind n i :: rest, members, heap => exec module rest (members.set n i) heap

/-- `module_from_source`, ad_hoc_utils.py:67-81; the name is the one given or the fresh one. -/
def fromSource (module : Name) (src : Source V) (w : World V) : Except Err (Dict Name Nat) × World V :=
  if src.compiles then
    let r := exec module src.body [] w.fns
    let w' : World V := { fns := r.2, mods := w.mods.set module r.1 }
    if src.raises then (.error .raised, w') else (.ok r.1, w')
  else (.error .syntax_, w)

/-- `valid_fn`, graph_utils.py:17-22. -/
def valid (w : World V) (module : Name) (p : Name × Nat) : Bool :=
  match w.fns[p.2]? with
  | none => false
  | some f => !underscored f.name && isSubmodule f.module module

/-- `find_functions`, graph_utils.py:10-24: the members by name, as `inspect.getmembers` sorts them. -/
def found (w : World V) (module : Name) : List (Name × Nat) :=
  (sortBy (fun a b => strLe a.1 b.1) ((w.mods.get? module).getD [])).filter (valid w module)

/-- The default of a positional parameter: the defaults belong to the last ones (`f.__defaults__`, ad_hoc_utils.py:17). -/
def positionalDefault (params : List Name) (defaults : List V) (p : Name) : Option V :=
  ((params.reverse.zip defaults.reverse).find? (fun q => q.1 == p)).map (·.2)

/-- `inspect.signature`, node.py:108-123: the parameters and their defaults. -/
def signature (f : Fn V) : List (Name × Option V) :=
  f.code.positional.map (fun p => (p, positionalDefault f.code.positional f.defaults p)) ++
    f.code.kwonly.map (fun p => (p, f.kwdefaults.get? p))

/-- The values of the parameters in a call with keyword arguments, as nodes are called (node.py:260-262); a parameter without
value is a `TypeError`. -/
def bindArgs (kw : Dict Name V) : List (Name × Option V) → Option (Dict Name V)
  | [] => some []
  | (p, d) :: rest =>
    match (kw.get? p).or d, bindArgs kw rest with
    | some v, some r => some ((p, v) :: r)
    | _, _ => none

/-- Calling a function with keyword arguments (node.py:260-262); an argument that is no parameter is a `TypeError`, too. -/
def call (f : Fn V) (kw : Dict Name V) : Except UserErr V :=
  if kw.keys.all (fun k => ((signature f).map (·.1)).contains k) then
    match bindArgs kw (signature f) with
    | none => .error "TypeError"
    | some args => f.code.run args
  else .error "TypeError"

/-- Changing a function object, as decorators (base.py:101-113) and resolvers (configuration.py:183) do. -/
def write (w : World V) (id : Nat) (u : Fn V → Fn V) : World V := { w with fns := w.fns.modify id u }

end Verif.TempModule
