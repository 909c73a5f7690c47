import Verif.Model.Hooks

/-!
The two deprecated caching adapters: `CacheAdapter` (hamilton/lifecycle/default.py:326-438, on `shelve`) and
`DiskCacheAdapter` (hamilton/plugins/h_diskcache.py:72-146, on `diskcache`), and `evict_all_except` (h_diskcache.py:15-38).
`src n` is the hash of the source code of the function of a node (after unwrapping partials, default.py:387-390): that this
hash can be computed is assumed (`DiskCacheAdapter` does not unwrap partials, for which it raises). A key is the pair of that hash and the list of the argument values: the digest of
default.py:430-438 and the tuple of h_diskcache.py:111 without collisions.
-/
namespace Verif
variable {T V : Type}

/-- The key under which a result is kept: default.py:430-438, h_diskcache.py:111. The names of the parameters and of the node
are not part of it. -/
def legacyKey (hash : String) (kw : Dict Name V) : String × List V := (hash, kw.map (·.2))

/-- The state of an adapter and its cache: default.py:340-358, h_diskcache.py:79-88. `tags` are those of diskcache; `invoked`
records which functions were really called. The file itself, its opening and closing are left out. -/
structure LegacyCache (V : Type) where
  entries : Dict (String × List V) V := []
  tags : Dict (String × List V) (Name × String) := []
  used : Dict Name String := []
  history : Dict Name (List String) := []
  invoked : List (Name × Dict Name V) := []

/-- `run_before_graph_execution`, default.py:367-371, h_diskcache.py:97-100: without a list of nodes, all nodes of the graph. -/
def legacyVars (cacheVars : List Name) (g : Graph T V) : List Name :=
  if cacheVars.length = 0 then g.keys else cacheVars

/-- `node_callable(**node_kwargs)`. -/
def invoke (n : Node T V) (kw : Dict Name V) (t : LegacyCache V) : Except UserErr V × LegacyCache V :=
  (n.fn kw, { t with invoked := t.invoked ++ [(n.name, kw)] })

variable [DecidableEq V]

/-- `CacheAdapter.run_to_execute_node`, default.py:373-399. -/
def shelveExec (src : Node T V → String) (pyNone : V) (vars : List Name) (n : Node T V) (kw : Dict Name V)
    (t : LegacyCache V) : Except UserErr V × LegacyCache V :=
  if n.name ∈ vars then
    match t.entries.get? (legacyKey (src n) kw) with
    | some v =>
      if v = pyNone then
        invoke n kw { t with used := t.used.set n.name (src n),
                             history := t.history.set n.name ((t.history.get? n.name).getD [] ++ [src n]) }
      else (.ok v, t)
    | none =>
      invoke n kw { t with used := t.used.set n.name (src n),
                           history := t.history.set n.name ((t.history.get? n.name).getD [] ++ [src n]) }
  else invoke n kw t

/-- `CacheAdapter.run_after_node_execution`, default.py:401-415; also called when the function raised, with `result=None`. -/
def shelveAfter (pyNone : V) (vars : List Name) (n : Node T V) (kw : Dict Name V) (result : Option V) (t : LegacyCache V) :
    LegacyCache V :=
  if n.name ∈ vars then
    match t.used.get? n.name with
    | none => t
    | some hash => { t with entries := t.entries.set (legacyKey hash kw) (result.getD pyNone) }
  else t

/-- `CacheAdapter` as a lifecycle adapter. -/
def shelveAdapter (src : Node T V → String) (pyNone : V) (vars : List Name) : Adapter T V (LegacyCache V) :=
  { id := 0, exec := some (shelveExec src pyNone vars),
    post := some fun n kw _ _ result t => (none, shelveAfter pyNone vars n kw result t) }

/-- `DiskCacheAdapter.run_to_execute_node`, h_diskcache.py:102-128. -/
def diskExec (src : Node T V → String) (pyNone : V) (vars : List Name) (n : Node T V) (kw : Dict Name V)
    (t : LegacyCache V) : Except UserErr V × LegacyCache V :=
  if n.name ∈ vars then
    match t.entries.get? (legacyKey (src n) kw) with
    | some v =>
      if v = pyNone then
        invoke n kw { t with used := t.used.set n.name (src n),
                             history := t.history.set n.name ((t.history.get? n.name).getD [] ++ [src n]) }
      else (.ok v, { t with used := t.used.set n.name (src n) })
    | none =>
      invoke n kw { t with used := t.used.set n.name (src n),
                           history := t.history.set n.name ((t.history.get? n.name).getD [] ++ [src n]) }
  else invoke n kw t

/-- `DiskCacheAdapter.run_after_node_execution`, h_diskcache.py:130-138: `cache.add` does nothing if the key exists; `none` is
the `KeyError` of `used_nodes_hash[node_name]`. -/
def diskAfter (pyNone : V) (vars : List Name) (n : Node T V) (kw : Dict Name V) (result : Option V) (t : LegacyCache V) :
    Option (LegacyCache V) :=
  if n.name ∈ vars then
    match t.used.get? n.name with
    | none => none
    | some hash =>
      if t.entries.has (legacyKey hash kw) then some t
      else some { t with entries := t.entries.set (legacyKey hash kw) (result.getD pyNone),
                         tags := t.tags.set (legacyKey hash kw) (n.name, hash) }
  else some t

/-- `DiskCacheAdapter` as a lifecycle adapter. -/
def diskAdapter (src : Node T V → String) (pyNone : V) (vars : List Name) : Adapter T V (LegacyCache V) :=
  { id := 0, exec := some (diskExec src pyNone vars),
    post := some fun n kw _ _ result t =>
      match diskAfter pyNone vars n kw result t with
      | none => (some "KeyError", t)
      | some t' => (none, t') }

/-- A run of a graph with one of the adapters (and no other). -/
def legacyRun (isException : UserErr → Bool) (a : Adapter T V (LegacyCache V)) (g : Graph T V) (nodes : List (Node T V))
    (inputs overrides : Dict Name V) (t : LegacyCache V) : Out (ExecState V × HookState V (LegacyCache V)) ExecErr :=
  executeWith g nodes inputs overrides (executeLifecycle isException [a]) ⟨[], t⟩

/-! ### Eviction -/

/-- `cache.evict(tag=...)`, h_diskcache.py:34: all entries with the tag. -/
def evictTag (tag : Name × String) (t : LegacyCache V) : LegacyCache V :=
  { t with entries := t.entries.filter (fun e => t.tags.get? e.1 != some tag),
           tags := t.tags.filter (fun e => t.tags.get? e.1 != some tag) }

/-- The loop h_diskcache.py:33-35. -/
def evictAll (node : Name) : List String → LegacyCache V → LegacyCache V
  | [], t => t
  | h :: rest, t => evictAll node rest (evictTag (node, h) t)

/-- The loop h_diskcache.py:22-35 over the recorded history. `keep` gives the hash of the current version of the nodes to
keep; `none` is the `ValueError` of `list.remove`. Returns the new history, the number of evictions and the cache. -/
def evictLoop (keep : Name → Option String) : Dict Name (List String) → LegacyCache V →
    Option (Dict Name (List String) × Nat × LegacyCache V)
  | [], t => some ([], 0, t)
  | (node, hist) :: rest, t =>
    if hist.length < 1 then evictLoop keep rest t
    else
      match keep node with
      | some h =>
        if h ∈ hist then
          match evictLoop keep rest (evictAll node (hist.erase h) t) with
          | none => none
          | some (news, k, t') => some ((node, [h]) :: news, (hist.erase h).length + k, t')
        else none
      | none =>
        match evictLoop keep rest (evictAll node hist t) with
        | none => none
        | some (news, k, t') => some (news, hist.length + k, t')

/-- `evict_all_except`, h_diskcache.py:15-38, on the history stored in the cache (h_diskcache.py:19, 140-141). -/
def evictAllExcept (keep : Name → Option String) (t : LegacyCache V) : Option (Nat × LegacyCache V) :=
  match evictLoop keep t.history t with
  | none => none
  | some (news, k, t') => some (k, { t' with history := news })

end Verif
