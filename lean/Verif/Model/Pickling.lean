import Verif.Model.DryRun

/-!
Pickling of drivers (`hamilton/driver.py`) and of the caching adapter (`hamilton/caching/adapter.py`), as used by executors that
send work to other processes. An object is its `__dict__`; pickling and loading the values of attributes themselves gives equal values
(simplification: values that cannot be pickled are left out).
-/
namespace Verif.Pickling

/-- A path of a store as it was given: absolute, or relative to the working directory (stores/file.py:18). -/
inductive Path where
  | abs (p : List Name)
  | rel (p : List Name)
  deriving DecidableEq, Repr

/-- The directory a path denotes in a process with a working directory (`Path.resolve`, stores/sqlite.py:17). -/
def Path.resolve (cwd : List Name) : Path → List Name
  | .abs p => p
  | .rel p => cwd ++ p

/-- Metadata stores: `SQLiteMetadataStore`, whose directory is resolved when it is made (stores/sqlite.py:12-25), and
`InMemoryMetadataStore` (stores/memory.py:15-19). -/
inductive MetaStore where
  | sqlite (dir : Path) (connection : Dict Name String)
  | memory (content : Dict Name String)
  deriving DecidableEq, Repr

/-- Result stores: `FileResultStore` (stores/file.py:16-22) and `InMemoryResultStore` (stores/memory.py:167-169). -/
inductive ResStore where
  | file (path : Path) (createDir : Bool)
  | memory (content : Dict Name String)
  deriving DecidableEq, Repr

/-- Values in the `__dict__` of the adapter and in its pickled state (adapter.py:275-281): the stores, their classes (whether they are
in memory), what `__getstate__` of a store gave, and all others. -/
inductive Val (A : Type) where
  | plain (a : A)
  | metaStore (s : MetaStore)
  | resStore (s : ResStore)
  | cls (memory : Bool)
  | metaInit (path : Path) (connection : Dict Name String)
  | resInit (path : Path)

variable {A : Type}

/-- `SQLiteMetadataStore(path, connection_kwargs)`, stores/sqlite.py:12-25. -/
def openMeta (cwd : List Name) (path : Path) (connection : Dict Name String) : MetaStore :=
  .sqlite (.abs (path.resolve cwd)) connection

/-- `FileResultStore(path)`, stores/file.py:16-22. -/
def openRes (path : Path) : ResStore := .file path true

/-- `HamiltonCacheAdapter.__getstate__`, adapter.py:270-282, with those of the stores, stores/sqlite.py:27-35 and
stores/file.py:24-28. The stores in memory have none: before Python 3.11 this is an `AttributeError`, later their `__dict__` is
taken and `__setstate__` raises `TypeError` (simplification: the earlier error). -/
def cacheState (d : Dict Name (Val A)) : Except UserErr (Dict Name (Val A)) :=
  match d.get? "metadata_store", d.get? "result_store" with
  | some (.metaStore (.sqlite dir conn)), some (.resStore (.file path _)) =>
    .ok ((((((d.set "metadata_store_cls" (.cls false)).set "metadata_store_init" (.metaInit dir conn)).set
      "result_store_cls" (.cls false)).set "result_store_init" (.resInit path)).del "metadata_store").del "result_store")
  | _, _ => .error "AttributeError"

/-- `HamiltonCacheAdapter.__setstate__`, adapter.py:284-297, on an object without attributes in a process with a working directory. -/
def cacheLoad (cwd : List Name) (state : Dict Name (Val A)) : Except UserErr (Dict Name (Val A)) :=
  match state.get? "metadata_store_init", state.get? "result_store_init" with
  | some (.metaInit dir conn), some (.resInit path) =>
    let self : Dict Name (Val A) :=
      [("metadata_store", .metaStore (openMeta cwd dir conn)), ("result_store", .resStore (openRes path))]
    .ok (self.merge ((state.del "metadata_store_cls").del "result_store_cls"))
  | _, _ => .error "TypeError"

/-- Sending the adapter from process to process, each with its working directory (`pickle.dumps`, `pickle.loads`;
adapter.py:270-297). -/
def sendCache : List (List Name) → Dict Name (Val A) → Except UserErr (Dict Name (Val A))
  | [], d => .ok d
  | cwd :: rest, d =>
    match cacheState d with
    | .error e => .error e
    | .ok s =>
      match cacheLoad cwd s with
      | .error e => .error e
      | .ok d => sendCache rest d

/-! ### Drivers -/

/-- `importlib.util.find_spec(m.__name__)`, driver.py:286: the name in the specification, `None`, or a `ValueError` for loaded modules
whose `__spec__` is `None`, such as temporary modules and `__main__`. -/
inductive Spec where
  | found (name : Name)
  | missing
  | noSpec
  deriving DecidableEq, Repr

/-- `importlib.import_module`, driver.py:299-301. -/
inductive Import where
  | ok
  | importError
  | raises (e : UserErr)
  deriving DecidableEq, Repr

/-- A process, as far as modules are concerned (driver.py:286 and 300). -/
structure Process where
  spec : Name → Spec
  imp : Name → Import

/-- A driver: the names of its modules and its other attributes (driver.py:431-500), among them
`__graph_module_names` after loading (driver.py:294). -/
structure Drv (A : Type) where
  modules : List Name
  attrs : Dict Name A

/-- The list comprehension of driver.py:285-287. -/
def specNames (p : Process) : List Name → Except UserErr (List Name)
  | [] => .ok []
  | m :: rest =>
    match p.spec m with
    | .noSpec => .error "ValueError"
    | .missing => .error "AttributeError"
    | .found n =>
      match specNames p rest with
      | .error e => .error e
      | .ok ns => .ok (n :: ns)

/-- The loop of driver.py:297-305. -/
def importAll (p : Process) : List Name → Except UserErr (List Name)
  | [] => .ok []
  | n :: rest =>
    match p.imp n with
    | .raises e => .error e
    | .importError => importAll p rest
    | .ok =>
      match importAll p rest with
      | .error e => .error e
      | .ok ms => .ok (n :: ms)

/-- `Driver.__getstate__` in one process and `Driver.__setstate__` in another, driver.py:280-305; `encode` is the list of names as
a value. -/
def sendDriver (encode : List Name → A) (src dst : Process) (d : Drv A) : Except UserErr (Drv A) :=
  match specNames src d.modules with
  | .error e => .error e
  | .ok names =>
    match importAll dst names with
    | .error e => .error e
    | .ok ms => .ok ⟨ms, d.attrs.set "__graph_module_names" (encode names)⟩

end Verif.Pickling
