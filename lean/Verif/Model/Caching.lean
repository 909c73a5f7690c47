import Verif.Model.Lifecycle
import Verif.Model.MetadataStore

/-!
The caching adapter (`hamilton/caching/adapter.py`, `HamiltonCacheAdapter`) for in-memory execution (`task_id` is `None`,
so every node has role STANDARD, adapter.py:499-537). Logging is left out.
-/
namespace Verif

/-- `CachingBehavior`, adapter.py:42-86. -/
inductive Behavior where
  | default | recompute | disable | ignore
  deriving DecidableEq, Repr

/-- What the adapter takes from elsewhere. `hash` is `fingerprinting.hash_value`, `none` for the constant `UNHASHABLE`
(fingerprinting.py, modelled in `Verif.Model.Fingerprint`); `tupleHead v` is `v[0]` when `v` is a tuple; `uuid i` is the
`i`-th value of `uuid.uuid4()`; `codec` and `alnum` are those of cache keys. -/
structure CacheEnv (V : Type) where
  hash : V → Option String
  tupleHead : V → Option V
  uuid : Nat → String
  codec : Codec
  alnum : Char → Bool

/-- The part of `MetadataStore` (stores/base.py:81-134) the adapter uses. -/
structure MetaStore (M : Type) where
  start : M → String → M × Option StoreErr
  set : M → CKey → String → String → String → String → M × Option StoreErr
  get : M → CKey → Except StoreErr (Option String)

/-- `InMemoryMetadataStore`, stores/memory.py:15-56. -/
def memStore : MetaStore MemMeta where
  start m run := (m.initialize run, none)
  set m key version run _ _ := m.set key version run
  get m key := .ok (m.get key)

/-- `SQLiteMetadataStore`, stores/sqlite.py:10-176. -/
def sqlStore (Z : Codec) : MetaStore SqlMeta where
  start m run := m.initialize run
  set m key version run name code := m.set Z key version run (some name) (some code)
  get m key := m.get key

/-- One call of `Driver.execute` with a cache, with what the adapter looks up for it: `rawInputs` are the inputs passed by
the caller (the hook gets them without the config, driver.py:607-620), `inputs` those of the run; `behaviors` is the result
of `resolve_behaviors` (adapter.py:892-992), `codes` that of `resolve_code_versions` (adapter.py:994-1029), `defaults` the
`default_parameter_values` of each node (node.py:85,102,120), `loaders` and `savers` the lists `_data_loaders` and
`_data_savers`. `killAfter`: the process is killed when that many operations that write to the stores are done; `torn`: if
the next one writes a result file, the file is left truncated. -/
structure Session (T V : Type) where
  runId : String
  graph : Graph T V
  nodes : List (Node T V)
  rawInputs : Dict Name V
  inputs : Dict Name V
  overrides : Dict Name V
  behaviors : Dict Name Behavior
  codes : Dict Name String
  defaults : Name → Dict Name V
  loaders : List Name
  savers : List Name
  killAfter : Option Nat
  torn : Bool

/-- State of the adapter and its stores. `results` is the result store, in memory (stores/memory.py:167-206) or in files
(stores/file.py:16-123): a value, or `none` for a truncated file. `versions` and `keys` are `data_versions[run_id]` and
`cache_keys[run_id]`. Ghost fields: `counter` counts the uuids drawn, `issued` records the value each random version was
made for, `executed` the functions run. -/
structure CacheState (M V : Type) where
  store : M
  results : Dict String (Option V)
  versions : Dict Name String
  keys : Dict Name String
  counter : Nat
  issued : List (String × V)
  executed : List Name
  killAfter : Option Nat
  killed : Bool

variable {T V M : Type}

/-- A random version: `prefix + f"_{uuid.uuid4()}"`. -/
def CacheState.fresh (env : CacheEnv V) (pre : String) (v : V) (s : CacheState M V) : String × CacheState M V :=
  let d := pre ++ "_" ++ env.uuid s.counter
  (d, { s with counter := s.counter + 1, issued := (d, v) :: s.issued })

/-- `_version_data`, adapter.py:779-803. -/
def CacheState.versionData (env : CacheEnv V) (v : V) (s : CacheState M V) : String × CacheState M V :=
  match env.hash v with
  | some d => (d, s)
  | none => s.fresh env "<unhashable>" v

/-- `_resolve_default_parameter_values`, adapter.py:1067-1083. -/
def resolveDefaults (defaults kw : Dict Name V) : Dict Name V :=
  defaults.foldl (fun acc p => if kw.has p.1 then acc else acc.set p.1 p.2) kw

/-- Before an operation that writes to a store: is the process killed now? Not code of the adapter. -/
def CacheState.tick (s : CacheState M V) : Bool × CacheState M V :=
  match s.killAfter with
  | none => (false, s)
  | some 0 => (true, { s with killed := true })
  | some (k + 1) => (false, { s with killAfter := some k })

/-- The body of the loop in `pre_node_execute`, adapter.py:1166-1217, for one dependency. The last test (1212-1215) has no
effect: `version_data` never returns `UNHASHABLE`. -/
def depVersion (env : CacheEnv V) (sess : Session T V) (d : Name) (v : V) (s : CacheState M V) :
    Except UserErr String × CacheState M V :=
  match sess.behaviors.get? d with
  | none => (.error "KeyError", s)
  | some .ignore => (.ok "<ignore>", s)
  | some .disable => let p := s.fresh env "<disable>" v; (.ok p.1, p.2)
  | some _ =>
    match s.versions.get? d with
    | some ver => (.ok ver, s)
    | none => let p := s.versionData env v; (.ok p.1, p.2)

/-- The loop of adapter.py:1164-1217. -/
def depVersions (env : CacheEnv V) (sess : Session T V) :
    Dict Name V → Dict Name String → CacheState M V → Except UserErr (Dict Name String) × CacheState M V
  | [], acc, s => (.ok acc, s)
  | (d, v) :: rest, acc, s =>
    match depVersion env sess d v s with
    | (.error e, s) => (.error e, s)
    | (.ok ver, s) => depVersions env sess rest (acc.set d ver) s

/-- `code_versions[run_id]` after `pre_graph_execute`: every input gets the constant version of adapter.py:1038. -/
def Session.allCodes (sess : Session T V) : Dict Name String :=
  sess.rawInputs.foldl (fun c p => c.set p.1 ("input__" ++ p.1)) sess.codes

/-- `pre_node_execute`, adapter.py:1133-1232. -/
def preNode (env : CacheEnv V) (sess : Session T V) (n : Node T V) (kw : Dict Name V) (s : CacheState M V) :
    Except UserErr Unit × CacheState M V :=
  match sess.behaviors.get? n.name with
  | none => (.error "KeyError", s)
  | some .ignore => (.ok (), s)
  | some .disable => (.ok (), s)
  | some _ =>
    match depVersions env sess (resolveDefaults (sess.defaults n.name) kw) [] s with
    | (.error e, s) => (.error e, s)
    | (.ok deps, s) =>
      match sess.allCodes.get? n.name with
      | none => (.error "KeyError", s)
      | some code => (.ok (), { s with keys := s.keys.set n.name (createCacheKey env.codec env.alnum n.name code deps) })

/-- `_set_stored_metadata`, adapter.py:754-777. -/
def setStored (S : MetaStore M) (sess : Session T V) (name : Name) (key : CKey) (version : String) (s : CacheState M V) :
    Except UserErr Unit × CacheState M V :=
  match sess.allCodes.get? name with
  | none => (.error "KeyError", s)
  | some code =>
    match s.tick with
    | (true, s) => (.error "killed", s)
    | (false, s) =>
      match S.set s.store key version sess.runId name code with
      | (m, none) => (.ok (), { s with store := m })
      | (m, some _) => (.error "store", { s with store := m })

/-- After executing a node, adapter.py:1266-1300 and 1354-1383 (the same code twice): unpack the result of a data loader,
version the result, and record the version in memory and in the metadata store. -/
def recordResult (env : CacheEnv V) (S : MetaStore M) (sess : Session T V) (name : Name) (result : V) (s : CacheState M V) :
    Except UserErr V × CacheState M V :=
  let result := if sess.loaders.contains name then (env.tupleHead result).getD result else result
  let p := s.versionData env result
  let version := if sess.savers.contains name then name ++ "__metadata" else p.1
  let s := { p.2 with versions := p.2.versions.set name version }
  match setStored S sess name (s.keys.get? name) version s with
  | (.error e, s) => (.error e, s)
  | (.ok (), s) => (.ok result, s)

/-- `_execute_node`, adapter.py:819-838, followed by `recordResult`. -/
def executeAndRecord (env : CacheEnv V) (S : MetaStore M) (sess : Session T V) (n : Node T V) (kw : Dict Name V)
    (s : CacheState M V) : Except UserErr V × CacheState M V :=
  let s := { s with executed := s.executed ++ [n.name] }
  match n.fn kw with
  | .error e => (.error e, s)
  | .ok v => recordResult env S sess n.name v s

/-- `get_data_version`, adapter.py:680-721: first in memory, then in the metadata store. -/
def getDataVersion (S : MetaStore M) (name : Name) (key : CKey) (s : CacheState M V) : Except UserErr (Option String) :=
  match s.versions.get? name with
  | some ver => .ok (some ver)
  | none =>
    match key with
    | none => .ok none
    | some k =>
      match S.get s.store (some k) with
      | .error _ => .error "store"
      | .ok o => .ok o

/-- `do_node_execute`, adapter.py:1234-1385. A truncated result file makes the unpickling raise (stores/base.py:213-221); the
handler for `ResultRetrievalError` (adapter.py:1345-1350) is left out: no code raises that exception. -/
def doNode (env : CacheEnv V) (S : MetaStore M) (sess : Session T V) (n : Node T V) (kw : Dict Name V) (s : CacheState M V) :
    Except UserErr V × CacheState M V :=
  let kw := resolveDefaults (sess.defaults n.name) kw
  match sess.behaviors.get? n.name with
  | none => (.error "KeyError", s)
  | some .disable =>
    let s := { s with executed := s.executed ++ [n.name] }
    match n.fn kw with
    | .error e => (.error e, s)
    | .ok v => (.ok v, s)
  | some .recompute => executeAndRecord env S sess n kw s
  | some .ignore => executeAndRecord env S sess n kw s
  | some .default =>
    match getDataVersion S n.name (s.keys.get? n.name) s with
    | .error e => (.error e, s)
    | .ok none => executeAndRecord env S sess n kw s
    | .ok (some ver) =>
      if ver = "<unhashable>" then executeAndRecord env S sess n kw s
      else
        match s.results.get? ver with
        | none => executeAndRecord env S sess n kw s
        | some none => (.error "UnpicklingError", s)
        | some (some v) => (.ok v, { s with versions := s.versions.set n.name ver })

/-- `post_node_execute` after success, adapter.py:1387-1459, without a cache format. -/
def postNode (S : MetaStore M) (sess : Session T V) (n : Node T V) (result : V) (s : CacheState M V) :
    Except UserErr Unit × CacheState M V :=
  match sess.behaviors.get? n.name with
  | none => (.error "KeyError", s)
  | some .disable => (.ok (), s)
  | some _ =>
    match getDataVersion S n.name (s.keys.get? n.name) s with
    | .error e => (.error e, s)
    | .ok none => (.error "AssertionError", s)
    | .ok (some ver) =>
      if s.results.has ver then (.ok (), s)
      else
        match s.tick with
        | (true, s) =>
          (.error "killed", if sess.torn then { s with results := s.results.set ver none } else s)
        | (false, s) => (.ok (), { s with results := s.results.set ver (some result) })

/-- `execute_lifecycle_for_node`, graph_functions.py:255-331, with the caching adapter: the post hook does nothing after a
failure (adapter.py:1406-1416). -/
def runCached (env : CacheEnv V) (S : MetaStore M) (sess : Session T V) : Runner T V (CacheState M V) := fun n kw s =>
  match preNode env sess n kw s with
  | (.error e, s) => (.error e, s)
  | (.ok (), s) =>
    match doNode env S sess n kw s with
    | (.error e, s) => (.error e, s)
    | (.ok v, s) =>
      match postNode S sess n v s with
      | (.error e, s) => (.error e, s)
      | (.ok (), s) => (.ok v, s)

/-- `_process_input` and `_process_override`, adapter.py:1031-1065: version a value given by the user. -/
def versionGiven (env : CacheEnv V) (given : Dict Name V) (s : CacheState M V) : CacheState M V :=
  given.foldl (fun s p => let q := s.versionData env p.2; { q.2 with versions := q.2.versions.set p.1 q.1 }) s

/-- `pre_graph_execute`, adapter.py:1085-1131. -/
def startRun (env : CacheEnv V) (S : MetaStore M) (sess : Session T V) (s : CacheState M V) :
    Except UserErr Unit × CacheState M V :=
  let s := { s with versions := [], keys := [], executed := [], killAfter := sess.killAfter, killed := false }
  match s.tick with
  | (true, s) => (.error "killed", s)
  | (false, s) =>
    match S.start s.store sess.runId with
    | (m, some _) => (.error "store", { s with store := m })
    | (m, none) => (.ok (), versionGiven env sess.overrides (versionGiven env sess.rawInputs { s with store := m }))

/-- A call of `Driver.execute` with a cache (driver.py:584-652): the hook before the graph, then the execution. An exception of
that hook is reported here under the empty node name. -/
def runSession (env : CacheEnv V) (S : MetaStore M) (sess : Session T V) (s : CacheState M V) :
    Out (ExecState V × CacheState M V) ExecErr :=
  match startRun env S sess s with
  | (.error e, s) => .err (.raised "" e) (ExecState.init, s)
  | (.ok (), s) => executeWith sess.graph sess.nodes sess.inputs sess.overrides (runCached env S sess) s

end Verif
