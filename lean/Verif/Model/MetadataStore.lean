import Verif.Model.CacheKey

/-! The two metadata stores of the cache (`hamilton/caching/stores`). -/
namespace Verif

/-- A cache key as the stores receive it; the adapter passes `None` for nodes with behaviour "ignore"
(adapter.py:1261-1286). -/
abbrev CKey := Option String

/-- Exceptions of the stores. `operational`: `sqlite3.OperationalError`, no such table; `decode`: `decode_key` failed. -/
inductive StoreErr where
  | keyError | indexError | operational | decode
  deriving DecidableEq, Repr

/-- What `get_run` reports for one node (without timestamps and dependency versions). -/
structure MetaRow where
  key : CKey
  version : String
  name : String
  code : String
  deriving DecidableEq, Repr

/-- `InMemoryMetadataStore`, stores/memory.py:15-19. -/
structure MemMeta where
  versions : Dict CKey String
  keysByRun : Dict String (List CKey)
  runIds : List String

/-- memory.py:16-19. -/
def MemMeta.empty : MemMeta := ⟨[], [], []⟩

/-- memory.py:31-35. -/
def MemMeta.initialize (s : MemMeta) (run : String) : MemMeta :=
  { s with keysByRun := s.keysByRun.set run [], runIds := s.runIds ++ [run] }

/-- memory.py:37-41: the version is written before the lookup of the run can fail. -/
def MemMeta.set (s : MemMeta) (key : CKey) (version run : String) : MemMeta × Option StoreErr :=
  let s := { s with versions := s.versions.set key version }
  match s.keysByRun.get? run with
  | none => (s, some .keyError)
  | some l => ({ s with keysByRun := s.keysByRun.set run (l ++ [key]) }, none)

/-- memory.py:43-46. -/
def MemMeta.get (s : MemMeta) (key : CKey) : Option String := s.versions.get? key

/-- memory.py:48-51. -/
def MemMeta.delete (s : MemMeta) (key : CKey) : MemMeta × Option StoreErr :=
  if s.versions.has key then ({ s with versions := s.versions.del key }, none) else (s, some .keyError)

/-- memory.py:53-56: the runs are kept. -/
def MemMeta.deleteAll (s : MemMeta) : MemMeta := { s with versions := [] }

/-- memory.py:26-29. -/
def MemMeta.exists_ (s : MemMeta) (key : CKey) : Bool := s.versions.has key

/-- memory.py:21-24. -/
def MemMeta.len (s : MemMeta) : Nat := s.versions.length

/-- memory.py:140-143. -/
def MemMeta.getRunIds (s : MemMeta) : List String := s.runIds

/-- memory.py:152-162, one key: decode it (an exception for `None` or text that is no cache key), then look it up. -/
def MemMeta.row (Z : Codec) (s : MemMeta) (key : CKey) : Except StoreErr MetaRow :=
  match key with
  | none => .error .decode
  | some k =>
    match decodeKey Z k with
    | none => .error .decode
    | some (name, code, _) =>
      match s.versions.get? key with
      | none => .error .keyError
      | some v => .ok ⟨key, v, name, code⟩

/-- memory.py:145-164. -/
def MemMeta.getRun (Z : Codec) (s : MemMeta) (run : String) : Except StoreErr (List MetaRow) :=
  match s.keysByRun.get? run with
  | none => .error .indexError
  | some ks => ks.mapM (s.row Z)

/-- `SQLiteMetadataStore`, stores/sqlite.py:10-25 and 58-104: three tables, oldest row first. `tables` is false once
`delete_all` has dropped them. -/
structure SqlMeta where
  tables : Bool
  runIds : List String
  history : List (CKey × String)
  entries : List MetaRow

/-- A new database: tables are created in `__init__`, sqlite.py:25, 58-104. -/
def SqlMeta.empty : SqlMeta := ⟨true, [], [], []⟩

/-- sqlite.py:106-112. -/
def SqlMeta.initialize (s : SqlMeta) (run : String) : SqlMeta × Option StoreErr :=
  if s.tables then ({ s with runIds := s.runIds ++ [run] }, none) else (s, some .operational)

/-- `WHERE cache_key = ?`: SQL `NULL` equals nothing. -/
def SqlMeta.find (s : SqlMeta) (key : CKey) : Option MetaRow :=
  match key with
  | none => none
  | some k => s.entries.find? (fun r => r.key = some k)

/-- `INSERT OR IGNORE INTO cache_metadata`, sqlite.py:148-155: `cache_key` is the primary key; `NULL` keys never conflict. -/
def SqlMeta.insertOrIgnore (s : SqlMeta) (r : MetaRow) : SqlMeta :=
  if (s.find r.key).isSome then s else { s with entries := s.entries ++ [r] }

/-- sqlite.py:120-157. -/
def SqlMeta.set (Z : Codec) (s : SqlMeta) (key : CKey) (version run : String) (name code : Option String) :
    SqlMeta × Option StoreErr :=
  let decoded : Option (String × String) :=
    match name, code with
    | some n, some c => some (n, c)
    | _, _ => match key with
      | none => none
      | some k => (decodeKey Z k).map (fun t => (t.1, t.2.1))
  match decoded with
  | none => (s, some .decode)
  | some (n, c) =>
    if s.tables then
      ({ s with history := s.history ++ [(key, run)] }.insertOrIgnore ⟨key, version, n, c⟩, none)
    else (s, some .operational)

/-- sqlite.py:159-176. -/
def SqlMeta.get (s : SqlMeta) (key : CKey) : Except StoreErr (Option String) :=
  if s.tables then .ok ((s.find key).map (·.version)) else .error .operational

/-- sqlite.py:178-182: no error when nothing matches. -/
def SqlMeta.delete (s : SqlMeta) (key : CKey) : SqlMeta × Option StoreErr :=
  if s.tables then
    match key with
    | none => (s, none)
    | some k => ({ s with entries := s.entries.filter (fun r => decide (r.key ≠ some k)) }, none)
  else (s, some .operational)

/-- sqlite.py:184-191: the tables are dropped and not created again. -/
def SqlMeta.deleteAll (_ : SqlMeta) : SqlMeta := ⟨false, [], [], []⟩

/-- sqlite.py:193-201. -/
def SqlMeta.exists_ (s : SqlMeta) (key : CKey) : Except StoreErr Bool :=
  if s.tables then .ok (s.find key).isSome else .error .operational

/-- sqlite.py:114-118. -/
def SqlMeta.len (s : SqlMeta) : Except StoreErr Nat :=
  if s.tables then .ok s.entries.length else .error .operational

/-- sqlite.py:203-209. -/
def SqlMeta.getRunIds (s : SqlMeta) : Except StoreErr (List String) :=
  if s.tables then .ok s.runIds else .error .operational

/-- sqlite.py:211-266. The query has no `ORDER BY`; the order of the history is assumed. -/
def SqlMeta.getRun (s : SqlMeta) (run : String) : Except StoreErr (List MetaRow) :=
  if s.tables then
    if s.runIds.contains run then
      .ok ((s.history.filter (fun h => decide (h.2 = run))).filterMap (fun h => s.find h.1))
    else .error .indexError
  else .error .operational

/-- The operations that change a metadata store (`MetadataStore`, stores/base.py:81-134). -/
inductive MetaOp where
  | start (run : String)
  | set (key : CKey) (version run : String) (name code : Option String)
  | delete (key : CKey)
  | deleteAll

/-- State of the in-memory store after an operation, whether it raises or not. -/
def MemMeta.apply (s : MemMeta) : MetaOp → MemMeta
  | .start run => s.initialize run
  | .set key version run _ _ => (s.set key version run).1
  | .delete key => (s.delete key).1
  | .deleteAll => s.deleteAll

/-- State of the SQLite store after an operation, whether it raises or not. -/
def SqlMeta.apply (Z : Codec) (s : SqlMeta) : MetaOp → SqlMeta
  | .start run => (s.initialize run).1
  | .set key version run name code => (s.set Z key version run name code).1
  | .delete key => (s.delete key).1
  | .deleteAll => s.deleteAll

/-- A history of operations on a new in-memory store. -/
def MemMeta.after (ops : List MetaOp) : MemMeta := ops.foldl MemMeta.apply .empty

/-- A history of operations on a new SQLite store. -/
def SqlMeta.after (Z : Codec) (ops : List MetaOp) : SqlMeta := ops.foldl (SqlMeta.apply Z) .empty

end Verif
