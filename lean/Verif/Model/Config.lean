import Verif.Model.Node

/-!
Discovery of functions in modules (`hamilton/graph_utils.py`) and selection of functions by configuration
(`hamilton/function_modifiers/configuration.py`, `hamilton/function_modifiers/base.py`).

Function objects are mutable: a resolving `@config` decorator renames them (configuration.py:183), and the renamed object is
what the next build of the same module finds.  The model therefore threads the functions of a module through builds.
-/
namespace Verif
variable {V : Type} [DecidableEq V]

/-- `str.rfind("__")`, used in base.py:36; `none` stands for `-1`. -/
def rfindDunder : List Char → Option Nat
  | [] => none
  | c :: t =>
    match rfindDunder t with
    | some i => some (i + 1)
    | none => if c = '_' && t.head? == some '_' then some 0 else none

/-- `sanitize_function_name` on the characters of the name, base.py:26-37. -/
def sanitizeChars (name : List Char) : List Char :=
  match rfindDunder name with
  | some i => name.take i
  | none => name

/-- `sanitize_function_name`, base.py:26-37. -/
def sanitizeName (name : Name) : Name := String.ofList (sanitizeChars name.toList)

/-- Python's `needle in text` for strings, on characters (used in graph_utils.py:7). -/
def isSubstring (needle : List Char) : List Char → Bool
  | [] => needle.isPrefixOf []
  | c :: t => needle.isPrefixOf (c :: t) || isSubstring needle t

/-- `is_submodule`, graph_utils.py:6-7, on the names of the modules. -/
def isSubmodule (child parent : Name) : Bool := isSubstring parent.toList child.toList

/-- The conditions `@config` can be given, configuration.py:24-80: `when`, `when_not`, `when_in`, `when_not_in` with their
keyword arguments, and an arbitrary function of the configuration (configuration.py:136-152).  The collections of `when_in`
and `when_not_in` are lists; values are compared by a lawful equality (simplification: Python's `==` may be overridden). -/
inductive CfgCond (V : Type) where
  | whenEq (kv : Dict Name V)
  | whenNot (kv : Dict Name V)
  | whenIn (kv : Dict Name (List V))
  | whenNotIn (kv : Dict Name (List V))
  | custom (f : Dict Name V → Bool)

/-- `configuration.get(key)`: `None` when the key is missing (configuration.py:34, 48, 63, 77). -/
def cfgGet (pyNone : V) (config : Dict Name V) (key : Name) : V := (config.get? key).getD pyNone

/-- The `resolves` functions, configuration.py:33-34, 47-48, 61-64, 75-78. -/
def CfgCond.resolves (pyNone : V) (config : Dict Name V) : CfgCond V → Bool
  | .whenEq kv => kv.all (fun p => decide (p.2 = cfgGet pyNone config p.1))
  | .whenNot kv => kv.all (fun p => decide (p.2 ≠ cfgGet pyNone config p.1))
  | .whenIn kv => kv.all (fun p => decide (cfgGet pyNone config p.1 ∈ p.2))
  | .whenNotIn kv => kv.all (fun p => decide (cfgGet pyNone config p.1 ∉ p.2))
  | .custom f => f config

/-- `config_used`, configuration.py:36, 50, 66, 80; `none` for a custom function (configuration.py:140). -/
def CfgCond.used : CfgCond V → Option (List Name)
  | .whenEq kv => some kv.keys
  | .whenNot kv => some kv.keys
  | .whenIn kv => some kv.keys
  | .whenNotIn kv => some kv.keys
  | .custom _ => none

/-- The node resolvers: `@config…` with an optional `name=` (configuration.py:138) and `@hamilton_exclude`
(configuration.py:258-292). -/
inductive FnResolver (V : Type) where
  | config (cond : CfgCond V) (target : Option Name)
  | exclude

/-- Errors of `resolve_config`: `missing` is `MissingConfigParametersException` (base.py:679-682), `keyError` the lookup
`config[key]` of base.py:683. -/
inductive CfgErr where
  | missing (keys : List Name)
  | keyError (key : Name)
  deriving DecidableEq, Repr

/-- `settings.ENABLE_POWER_USER_MODE`, settings.py:1. -/
def powerUserMode : Name := "hamilton.enable_power_user_mode"

/-- `{key: config[key] for key in config_required}`, base.py:683. -/
def copyRequired (config : Dict Name V) : List Name → Except CfgErr (Dict Name V)
  | [] => .ok []
  | k :: ks =>
    match config.get? k with
    | none => .error (.keyError k)
    | some v =>
      match copyRequired config ks with
      | .error e => .error e
      | .ok out => .ok ((k, v) :: out)

/-- The defaults for optional keys with the global one added, base.py:667-673. -/
def withGlobalDefault (pyFalse : V) (optional : Dict Name V) : Dict Name V :=
  optional.set powerUserMode ((optional.get? powerUserMode).getD pyFalse)

/-- `resolve_config`, base.py:649-686. `required = none` is `config_required is None`. -/
def resolveConfig (pyFalse : V) (config : Dict Name V) (required : Option (List Name)) (optional : Dict Name V) :
    Except CfgErr (Dict Name V) :=
  match required with
  | none => .ok config
  | some req =>
    let opt := withGlobalDefault pyFalse optional
    let missing := req.filter (fun k => !config.has k && !opt.has k)
    if missing ≠ [] then .error (.missing missing)
    else
      match copyRequired config req with
      | .error e => .error e
      | .ok out => .ok (opt.foldl (fun acc p => acc.set p.1 ((config.get? p.1).getD p.2)) out)

/-- `filter_config`, base.py:702-711, for `@config`: `required_config` and `optional_config`, configuration.py:154-169. -/
def CfgCond.filter (pyNone pyFalse : V) (config : Dict Name V) (cond : CfgCond V) : Except CfgErr (Dict Name V) :=
  match cond.used with
  | none => resolveConfig pyFalse config none []
  | some ks => resolveConfig pyFalse config (some []) (ks.map (fun k => (k, pyNone)))

/-- A function object of a module: its `__name__`, the module it was defined in, and its resolvers in the order in which
they were attached (innermost first, base.py:104-109). -/
structure PyFn (V : Type) where
  name : Name
  module : Name
  resolvers : List (FnResolver V)

/-- `config._get_function_name`, configuration.py:170-173. -/
def newName (target : Option Name) (name : Name) : Name :=
  match target with
  | some n => n
  | none => sanitizeName name

/-- The loop over the resolvers in `resolve_nodes`, base.py:809-813, with `config.resolve` (configuration.py:175-184) and
`hamilton_exclude.resolve` (configuration.py:277-284). The result tells whether the function stays and what it is called
now: a rename persists even when a later resolver drops the function. -/
def runResolvers (pyNone pyFalse : V) (config : Dict Name V) : List (FnResolver V) → Name → Except CfgErr (Bool × Name)
  | [], name => .ok (true, name)
  | .exclude :: _, name => .ok (false, name)
  | .config cond target :: rest, name =>
    match cond.filter pyNone pyFalse config with
    | .error e => .error e
    | .ok cfg =>
      if cond.resolves pyNone cfg then runResolvers pyNone pyFalse config rest (newName target name)
      else .ok (false, name)

/-- `valid_fn`, graph_utils.py:17-22. -/
def validFn (module : Name) (f : PyFn V) : Bool :=
  !("_".toList.isPrefixOf f.name.toList) && isSubmodule f.module module

/-- `find_functions`, graph_utils.py:10-24, on the functions among the members of the module
(`inspect.getmembers` lists them by the name of the attribute, an order that never changes). -/
def findFunctions (module : Name) (members : List (PyFn V)) : List (PyFn V) := members.filter (validFn module)

/-- What one build (graph.py:165-180) does with one member of the module: the name of its node, if it has one
(`Node.from_fn`, node.py:265-277, called by `DefaultNodeCreator`, base.py:625-627), and the function afterwards. -/
def buildMember (pyNone pyFalse : V) (config : Dict Name V) (module : Name) (f : PyFn V) :
    Except CfgErr (Option Name × PyFn V) :=
  if validFn module f then
    match runResolvers pyNone pyFalse config f.resolvers f.name with
    | .error e => .error e
    | .ok (true, n) => .ok (some n, { f with name := n })
    | .ok (false, n) => .ok (none, { f with name := n })
  else .ok (none, f)

/-- One build of a module: the node of every member and the module afterwards (graph.py:165-180, only the functions without
decorators other than `@config` and `@hamilton_exclude`). -/
def buildModule (pyNone pyFalse : V) (config : Dict Name V) (module : Name) :
    List (PyFn V) → Except CfgErr (List (Option Name) × List (PyFn V))
  | [] => .ok ([], [])
  | f :: fs =>
    match buildMember pyNone pyFalse config module f with
    | .error e => .error e
    | .ok (n, f') =>
      match buildModule pyNone pyFalse config module fs with
      | .error e => .error e
      | .ok (ns, fs') => .ok (n :: ns, f' :: fs')

/-- Builds with one configuration after the other (drivers made from the same module in one process). -/
def buildHistory (pyNone pyFalse : V) (module : Name) :
    List (Dict Name V) → List (PyFn V) → Except CfgErr (List (PyFn V))
  | [], fs => .ok fs
  | c :: cs, fs =>
    match buildModule pyNone pyFalse c module fs with
    | .error e => .error e
    | .ok (_, fs') => buildHistory pyNone pyFalse module cs fs'

end Verif
