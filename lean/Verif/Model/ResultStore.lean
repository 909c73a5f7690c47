import Verif.Dict

/-! The result stores of the cache (`hamilton/caching/stores/file.py`, `memory.py`, `base.py`). -/
namespace Verif.Results

/-- Exceptions of the stores: `ValueError` for saver and loader that do not go together, `KeyError` of a dictionary, an exception
of `pickle` (`pickle.dumps` or `pickle.loads`), an exception of a `DataLoader`, `AttributeError`. -/
inductive Err where
  | value | key | pickle | load | attribute
  deriving DecidableEq, Repr

/-- A `DataSaver` or `DataLoader` class as the stores see it: its `name()` and whether `__init__` takes `file` or `path`
(file.py:72-89). -/
structure Adapter where
  name : String
  takesPath : Bool
  deriving DecidableEq, Repr

/-- What a file in the directory holds: a pickled value, a pickled `DataLoader` that reads `path` (base.py:203-211), data written
by a `DataSaver`, or anything else, such as the database of `SQLiteMetadataStore` (sqlite.py:16-18). -/
inductive Content (V : Type) where
  | value (v : V)
  | loader (format path : String)
  | data (format : String) (v : V)
  | other
  deriving DecidableEq, Repr

/-- The directory of a `FileResultStore`, file.py:16-22: the files by name. Simplified: data versions are names of files in the
directory itself, and the directory exists. -/
abbrev Dir (V : Type) := Dict String (Content V)

/-- What is taken from elsewhere: which values `pickle.dumps` accepts (`pickle.loads` is assumed to give an equal value, and no
value is itself a `DataLoader`); `decode f g v` is what a loader named `g` gives for what a saver named `f` has written for `v`,
`none` if it raises. -/
structure Env (V : Type) where
  picklable : V → Bool
  decode : String → String → V → Option V

variable {V : Type}

/-- `name[:i]` for `i = name.rfind(".")` if `0 < i < len(name) - 1` and the whole name otherwise: the name without
`Path.suffix`. -/
def stem (name : String) : String :=
  let tail := name.toList.reverse.takeWhile (fun c => decide (c ≠ '.'))
  let rest := name.toList.reverse.drop tail.length
  match rest with
  | [] => name
  | _ :: front => if tail = [] ∨ front = [] then name else String.ofList front.reverse

/-- `_materialized_path`, file.py:45-47, `Path.with_suffix`. -/
def materializedPath (version format : String) : String := stem version ++ "." ++ format

/-- `exists`, file.py:49-52. -/
def Dir.exists_ (d : Dir V) (version : String) : Bool := d.has version

/-- `set`, file.py:54-97, with `StoredResult.new`, base.py:167-190, `save`, base.py:203-211, and `_write_result`, file.py:30-32:
the directory afterwards and the exception. Whatever a saver is given it writes. -/
def Dir.set (env : Env V) (d : Dir V) (version : String) (v : V) (saver loader : Option Adapter) : Dir V × Option Err :=
  match saver, loader with
  | none, none =>
    if env.picklable v then (Dict.set d version (.value v), none) else (d, some .pickle)
  | some s, some l =>
    if s.takesPath then
      if l.takesPath then
        let path := materializedPath version s.name
        (Dict.set (Dict.set d path (.data s.name v)) version (.loader l.name path), none)
      else (d, some .value)
    else (d, some .value)
  | _, _ => (d, some .value)

/-- `loader.load_data(None)`, base.py:219, as far as `_load_result_from_path` distinguishes it (file.py:36-40): the inner `none`
stands for a `FileNotFoundError`. -/
def Dir.read (env : Env V) (d : Dir V) (format path : String) : Except Err (Option V) :=
  match d.get? path with
  | none => .ok none
  | some (.data f v) =>
    match env.decode f format v with
    | none => .error .load
    | some w => .ok (some w)
  | some _ => .error .load

/-- `_load_result_from_path`, file.py:34-40, and `StoredResult.load`, base.py:213-224, of a file with this content. -/
def Dir.load (env : Env V) (d : Dir V) (c : Content V) : Except Err (Option V) :=
  match c with
  | .value v => .ok (some v)
  | .loader f p => d.read env f p
  | .data _ _ => .error .pickle
  | .other => .error .pickle

/-- `get`, file.py:99-107; `none` is the `None` returned when nothing is found. -/
def Dir.get (env : Env V) (d : Dir V) (version : String) : Except Err (Option V) :=
  match d.get? version with
  | none => .ok none
  | some c => d.load env c

/-- `delete`, file.py:109-112: `missing_ok`, and what a saver wrote is kept. -/
def Dir.delete (d : Dir V) (version : String) : Dir V := Dict.del d version

/-- `delete_all`, file.py:114-117: the whole directory goes. -/
def Dir.deleteAll (_ : Dir V) : Dir V := []

/-- The loop of `delete_expired`, file.py:119-123, over the names of the files. A result read from a file never has an expiry:
`load` makes it with `StoredResult.new(value=result)` (base.py:224, 187, 192-194). -/
def Dir.expiredLoop (env : Env V) (d : Dir V) : List String → Option Err
  | [] => none
  | name :: rest =>
    match d.get env name with
    | .error e => some e
    | .ok _ => d.expiredLoop env rest

/-- `delete_expired`, file.py:119-123. -/
def Dir.deleteExpired (env : Env V) (d : Dir V) : Dir V × Option Err := (d, d.expiredLoop env d.keys)

/-- `InMemoryResultStore`, memory.py:167-169: the value of each `StoredResult`; nothing ever passes `expires_in`. -/
abbrev Mem (V : Type) := Dict String V

/-- `exists`, memory.py:171-173. -/
def Mem.exists_ (m : Mem V) (version : String) : Bool := m.has version

/-- `set`, memory.py:175-178: saver and loader are accepted as `**kwargs` and not used. -/
def Mem.set (m : Mem V) (version : String) (v : V) : Mem V := Dict.set m version v

/-- `get`, memory.py:180-186. -/
def Mem.get (m : Mem V) (version : String) : Option V := m.get? version

/-- `delete`, memory.py:188-190. -/
def Mem.delete (m : Mem V) (version : String) : Mem V × Option Err :=
  if m.has version then (Dict.del m version, none) else (m, some .key)

/-- `delete_all`, memory.py:192-194. -/
def Mem.deleteAll (_ : Mem V) : Mem V := []

/-- `delete_expired`, memory.py:196-206: no result has an expiry, so nothing is deleted. -/
def Mem.deleteExpired (m : Mem V) : Mem V := m

/-- What can be done with a result store (`ResultStore`, base.py:55-78). -/
inductive Op (V : Type) where
  | set (version : String) (v : V) (saver loader : Option Adapter)
  | delete (version : String)
  | deleteAll

/-- The directory after an operation, whether it raises or not. -/
def Dir.apply (env : Env V) (d : Dir V) : Op V → Dir V
  | .set version v saver loader => (d.set env version v saver loader).1
  | .delete version => d.delete version
  | .deleteAll => d.deleteAll

/-- The exception of an operation on a directory. -/
def Dir.raises (env : Env V) (d : Dir V) : Op V → Option Err
  | .set version v saver loader => (d.set env version v saver loader).2
  | .delete _ => none
  | .deleteAll => none

/-- The in-memory store after an operation, whether it raises or not. -/
def Mem.apply (m : Mem V) : Op V → Mem V
  | .set version v _ _ => m.set version v
  | .delete version => (m.delete version).1
  | .deleteAll => m.deleteAll

/-- A history of operations on a new directory. -/
def Dir.after (env : Env V) (ops : List (Op V)) : Dir V := ops.foldl (Dir.apply env) []

/-- A history of operations on a new in-memory store. -/
def Mem.after (ops : List (Op V)) : Mem V := ops.foldl Mem.apply []

/-- `materialized_path_missing`, adapter.py:1434-1442. -/
def fileMissing (d : Dir V) (version : String) : Option (Adapter × Adapter) → Bool
  | none => false
  | some p => !d.has (materializedPath version p.1.name)

/-- The part of `post_node_execute` that writes a result to a directory, adapter.py:1426-1452: `format` is the saver and loader
that `search_data_adapter_registry` (base.py:17-52) finds for `@cache(format=...)`. -/
def storeFile (env : Env V) (d : Dir V) (version : String) (v : V) (format : Option (Adapter × Adapter)) :
    Dir V × Option Err :=
  let resultMissing := !d.exists_ version
  if resultMissing || fileMissing d version format then d.set env version v (format.map (·.1)) (format.map (·.2))
  else (d, none)

/-- The same with an in-memory store, which has no `_materialized_path` (adapter.py:1438). -/
def storeMem (m : Mem V) (version : String) (v : V) (format : Option (Adapter × Adapter)) : Mem V × Option Err :=
  match format with
  | some _ => (m, some .attribute)
  | none => if m.exists_ version then (m, none) else (m.set version v, none)

/-- What `do_node_execute` takes for a hit once the data version is known, adapter.py:1314-1346, with a directory: the cached value
(`none` is Python's `None`), or no hit, or an exception of `get`, which is not a `ResultRetrievalError`: nothing raises one. -/
def hitFile (env : Env V) (d : Dir V) (version : String) : Except Err (Option (Option V)) :=
  if d.exists_ version then
    match d.get env version with
    | .error e => .error e
    | .ok r => .ok (some r)
  else .ok none

end Verif.Results
