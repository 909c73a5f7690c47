import Verif.Model.Caching
import Verif.Model.Tags

/-!
How the caching behaviour of every node is chosen (`hamilton/caching/adapter.py`).
-/
namespace Verif

/-- The exceptions of this part. -/
inductive BehErr where
  | severalTrue                 -- ValueError, adapter.py:230-233
  | multiple (node : String)    -- ValueError, adapter.py:877-879
  | invalid (s : String)        -- KeyError, adapter.py:85-86
  | notAString                  -- AttributeError of `string.upper()`, adapter.py:84
  | noMainNode (node : String)  -- KeyError of `node.tags["hamilton.data_loader.node"]`, adapter.py:963
  | badMainNode (node : String) -- the tag above is not a string
  deriving DecidableEq, Repr

/-- `CachingBehavior.from_string`, adapter.py:72-86. Simplification: `upper` is that of ASCII letters. -/
def Behavior.ofString (s : String) : Except BehErr Behavior :=
  if s.toUpper = "DEFAULT" then .ok .default
  else if s.toUpper = "RECOMPUTE" then .ok .recompute
  else if s.toUpper = "DISABLE" then .ok .disable
  else if s.toUpper = "IGNORE" then .ok .ignore
  else .error (.invalid s)

/-- The same on the value of a tag: only strings have `.upper()`. -/
def Behavior.ofTag : TagVal → Except BehErr Behavior
  | .str s => Behavior.ofString s
  | .list _ => .error .notAString
  | .bool _ => .error .notAString

/-- The argument of `default=`, `recompute=`, `ignore=`, `disable=`: `None`, `True` or a collection of names,
adapter.py:202-205. Simplification: `False` and a plain string (tested for substrings) are left out. -/
inductive SetArg where
  | unset
  | everything
  | names (l : List String)
  deriving DecidableEq, Repr

/-- The arguments of `HamiltonCacheAdapter(...)` that choose behaviours, adapter.py:197-212. -/
structure CacheArgs where
  default : SetArg := .unset
  recompute : SetArg := .unset
  ignore : SetArg := .unset
  disable : SetArg := .unset
  defaultBehavior : Option String := none
  defaultLoader : Option String := none
  defaultSaver : Option String := none
  deriving DecidableEq, Repr

/-- The check of the constructor, adapter.py:230-233. -/
def CacheArgs.check (a : CacheArgs) : Except BehErr CacheArgs :=
  if [a.default, a.recompute, a.disable, a.ignore].countP (fun s => decide (s = .everything)) > 1 then .error .severalTrue
  else .ok a

/-- `Builder.with_cache(...)`, driver.py:1978-2060: the three default behaviours are the string "default" unless given. -/
def withCache (default recompute ignore disable : SetArg) (behavior loader saver : String := "default") :
    Except BehErr CacheArgs :=
  CacheArgs.check ⟨default, recompute, ignore, disable, some behavior, some loader, some saver⟩

/-- The parts of a node that matter here: name, whether its role is EXPAND, tags (node.py:44-124). -/
structure CNode where
  name : String
  expand : Bool
  tags : Dict String TagVal
  deriving DecidableEq, Repr

/-- Truth value of `node.tags.get(key)`: absent tags and empty strings or lists are false. -/
def tagTruthy (tags : Dict String TagVal) (key : String) : Bool :=
  match tags.get? key with
  | none => false
  | some (.str s) => decide (s ≠ "")
  | some (.list l) => decide (l ≠ [])
  | some (.bool b) => b

/-- The loop over the four sets, adapter.py:863-880; `none` for a set is `None` and `found` is `behavior_from_driver`. -/
def fromDriver (name : String) : List (Behavior × Option (List String)) → Option Behavior → Except BehErr (Option Behavior)
  | [], found => .ok found
  | (_, none) :: rest, found => fromDriver name rest found
  | (b, some l) :: rest, found =>
    if name ∈ l then
      match found with
      | some _ => .error (.multiple name)
      | none => fromDriver name rest (some b)
    else fromDriver name rest found

/-- The four sets after `True` was replaced, adapter.py:909-922. -/
structure Sets where
  default : Option (List String)
  disable : Option (List String)
  recompute : Option (List String)
  ignore : Option (List String)

/-- A set that was not replaced; `True` that is left over cannot occur after `CacheArgs.check` and counts as unset. -/
def SetArg.asNames : SetArg → Option (List String)
  | .unset => none
  | .everything => none
  | .names l => some l

/-- The `elif` chain replacing the first `True` by the names of all nodes, adapter.py:914-922. -/
def CacheArgs.sets (a : CacheArgs) (all : List String) : Sets :=
  if a.default = .everything then ⟨some all, a.disable.asNames, a.recompute.asNames, a.ignore.asNames⟩
  else if a.disable = .everything then ⟨a.default.asNames, some all, a.recompute.asNames, a.ignore.asNames⟩
  else if a.recompute = .everything then ⟨a.default.asNames, a.disable.asNames, some all, a.ignore.asNames⟩
  else if a.ignore = .everything then ⟨a.default.asNames, a.disable.asNames, a.recompute.asNames, some all⟩
  else ⟨a.default.asNames, a.disable.asNames, a.recompute.asNames, a.ignore.asNames⟩

/-- `_resolve_node_behavior`, adapter.py:839-890. The tag is read before the sets, so that an invalid tag fails first. -/
def resolveNode (n : CNode) (s : Sets) (default : String := "default") (loader : String := "default")
    (saver : String := "default") : Except BehErr Behavior :=
  if n.expand then .ok .recompute
  else do
    let fromTag ← match n.tags.get? "cache.behavior" with
      | none => pure none
      | some v => (Behavior.ofTag v).map some
    let fromDrv ← fromDriver n.name
      [(.default, s.default), (.disable, s.disable), (.recompute, s.recompute), (.ignore, s.ignore)] none
    match fromDrv with
    | some b => pure b
    | none =>
      match fromTag with
      | some b => pure b
      | none =>
        if tagTruthy n.tags "hamilton.data_loader" then Behavior.ofString loader
        else if tagTruthy n.tags "hamilton.data_saver" then Behavior.ofString saver
        else Behavior.ofString default

/-- `default_behavior`, adapter.py:924-926. -/
def CacheArgs.baseDefault (a : CacheArgs) : String := a.defaultBehavior.getD "default"
/-- `default_loader_behavior`, adapter.py:928-930. -/
def CacheArgs.loaderDefault (a : CacheArgs) : String := a.defaultLoader.getD a.baseDefault
/-- `default_saver_behavior`, adapter.py:932-934. -/
def CacheArgs.saverDefault (a : CacheArgs) : String := a.defaultSaver.getD a.baseDefault

/-- The first loop of `resolve_behaviors`, adapter.py:936-957. -/
def firstPass (a : CacheArgs) (s : Sets) : List CNode → Dict String Behavior → Except BehErr (Dict String Behavior)
  | [], acc => .ok acc
  | n :: rest, acc =>
    match resolveNode n s a.baseDefault a.loaderDefault a.saverDefault with
    | .error e => .error e
    | .ok b => firstPass a s rest (acc.set n.name b)

/-- One round of the second loop for a node tagged as loader, adapter.py:962-987. Simplification: a main node that is
not a string is an error here; the lists `_data_loaders` and `_data_savers` (adapter.py:987-990) are not collected. -/
def secondStep (a : CacheArgs) (s : Sets) (n : CNode) (acc : Dict String Behavior) : Except BehErr (Dict String Behavior) :=
  if n.tags.get? "hamilton.data_loader" = some (.bool true) then
    match n.tags.get? "hamilton.data_loader.node" with
    | none => .error (.noMainNode n.name)
    | some (.str main) =>
      if main = n.name then .ok acc
      else
        match acc.get? main with
        | some b => .ok (acc.set n.name b)
        | none =>
          match resolveNode ⟨main, false, n.tags⟩ s a.loaderDefault with
          | .error e => .error e
          | .ok b => .ok (acc.set n.name b)
    | some _ => .error (.badMainNode n.name)
  else .ok acc

/-- The second loop of `resolve_behaviors`, adapter.py:959-990. -/
def secondPass (a : CacheArgs) (s : Sets) : List CNode → Dict String Behavior → Except BehErr (Dict String Behavior)
  | [], acc => .ok acc
  | n :: rest, acc =>
    match secondStep a s n acc with
    | .error e => .error e
    | .ok acc' => secondPass a s rest acc'

/-- `resolve_behaviors`, adapter.py:892-992, on the nodes of the graph in order. -/
def resolveBehaviors (a : CacheArgs) (nodes : List CNode) : Except BehErr (Dict String Behavior) :=
  match firstPass a (a.sets (nodes.map CNode.name)) nodes [] with
  | .error e => .error e
  | .ok acc => secondPass a (a.sets (nodes.map CNode.name)) nodes acc

end Verif
