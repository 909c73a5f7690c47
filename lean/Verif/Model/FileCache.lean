import Verif.Model.Lifecycle

/-!
The deprecated `CachingGraphAdapter`, hamilton/experimental/h_cache.py:198-395: results of nodes tagged `cache` are kept in
files named after the node. Left out: the readers and writers themselves (h_cache.py:38-194), which are functions given to the
adapter here; logging; the directory `cache_path`, of which only the file names remain.
-/
namespace Verif
variable {T V W : Type}

/-- The adapter as constructed, h_cache.py:283-329. `W` are the contents of files. `fmt` is `node.tags.get("cache")` (:359).
A writer returns what it leaves in the file (if it opens it) and the exception it raises (if any); a reader gets the type
instead of the empty object of that type, and `empty` is the exception of constructing that object (:343-346). -/
structure FileAdapter (T V W : Type) where
  fmt : Name → Option String
  force : List Name
  writers : Dict String (V → Name → Option W × Option UserErr)
  readers : Dict String (T → W → Except UserErr V)
  empty : T → Option UserErr

/-- The files, `computed_nodes` (h_cache.py:303), and which functions were really called. -/
structure FileCache (V W : Type) where
  files : Dict String W := []
  computed : List Name := []
  invoked : List (Name × Dict Name V) := []

/-- `filepath`, h_cache.py:362. -/
def cacheFile (k : Name) (f : String) : String := k ++ "." ++ f

/-- `_write_cache`, h_cache.py:335-337. -/
def FileAdapter.write (a : FileAdapter T V W) (f : String) (v : V) (k : Name) (files : Dict String W) :
    Option UserErr × Dict String W :=
  match a.writers.get? f with
  | none => (some "ValueError", files)
  | some w =>
    match w v k with
    | (some x, e) => (e, files.set (cacheFile k f) x)
    | (none, e) => (e, files)

/-- `_get_empty_expected_type` and `_read_cache`, h_cache.py:339-346, 376-384. -/
def FileAdapter.read (a : FileAdapter T V W) (f : String) (typ : T) (x : W) : Except UserErr V :=
  match a.empty typ with
  | some e => .error e
  | none =>
    if a.writers.has f then
      match a.readers.get? f with
      | none => .error "KeyError"
      | some r => r typ x
    else .error "ValueError"

/-- Calls the function, writes the file and marks the node, h_cache.py:365-375. -/
def FileAdapter.recompute (a : FileAdapter T V W) (f : String) (n : Node T V) (kw : Dict Name V) (t : FileCache V W) :
    Except UserErr V × FileCache V W :=
  match n.fn kw with
  | .error e => (.error e, { t with invoked := t.invoked ++ [(n.name, kw)] })
  | .ok v =>
    match a.write f v n.name t.files with
    | (some e, files) => (.error e, { t with files := files, invoked := t.invoked ++ [(n.name, kw)] })
    | (none, files) =>
      (.ok v, { files := files, computed := n.name :: t.computed, invoked := t.invoked ++ [(n.name, kw)] })

/-- `implicitly_forced`, h_cache.py:360. -/
def implicitlyForced (n : Node T V) (computed : List Name) : Bool := n.dependencies.any fun d => computed.contains d

/-- `execute_node`, h_cache.py:348-390. -/
def FileAdapter.exec (a : FileAdapter T V W) (n : Node T V) (kw : Dict Name V) (t : FileCache V W) :
    Except UserErr V × FileCache V W :=
  match a.fmt n.name with
  | some f =>
    match t.files.get? (cacheFile n.name f) with
    | none => a.recompute f n kw t
    | some x =>
      if a.force.contains n.name || implicitlyForced n t.computed then a.recompute f n kw t
      else (a.read f n.typ x, t)
  | none =>
    (n.fn kw, { t with computed := if implicitlyForced n t.computed then n.name :: t.computed else t.computed,
                       invoked := t.invoked ++ [(n.name, kw)] })

/-- The execution of the graph, as by `Driver.raw_execute`: `build_result` is not called. -/
def fileRun (a : FileAdapter T V W) (g : Graph T V) (nodes : List (Node T V)) (inputs overrides : Dict Name V)
    (t : FileCache V W) : Out (ExecState V × FileCache V W) ExecErr :=
  executeWith g nodes inputs overrides a.exec t

/-- `Driver.execute`: after a successful execution `build_result` (h_cache.py:392-395) forgets what was computed. -/
def fileExecute (a : FileAdapter T V W) (g : Graph T V) (nodes : List (Node T V)) (inputs overrides : Dict Name V)
    (t : FileCache V W) : Out (ExecState V × FileCache V W) ExecErr :=
  match fileRun a g nodes inputs overrides t with
  | .ok (s, t') => .ok (s, { t' with computed := [] })
  | .err e st => .err e st

end Verif
