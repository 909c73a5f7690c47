import Verif.Model.MetadataStore
import Verif.Model.ResultStore

/-! Moving a cache from memory to other stores and back (`persist_to` and `load_from`, `hamilton/caching/stores/memory.py`). -/
namespace Verif.StoreCopy
open Verif

/-- A `for` loop whose body changes a store and may raise. -/
def each {σ α ε : Type} (f : σ → α → σ × Option ε) : σ → List α → σ × Option ε
  | s, [] => (s, none)
  | s, x :: rest =>
    match f s x with
    | (s, some e) => (s, some e)
    | (s, none) => each f s rest

/-- What `persist_to` does to the other metadata store: `initialize`, and `set` without node name and code version,
memory.py:88-98. -/
structure Target (σ : Type) where
  start : σ → String → σ × Option StoreErr
  set : σ → CKey → String → String → σ × Option StoreErr

/-- `SQLiteMetadataStore` as a target, sqlite.py:106-157. -/
def sqlTarget (Z : Codec) : Target SqlMeta where
  start s run := s.initialize run
  set s key version run := s.set Z key version run none none

variable {σ : Type}

/-- The body of the inner loop of `persist_to`, memory.py:93-98. -/
def persistKey (T : Target σ) (m : MemMeta) (run : String) (t : σ) (key : CKey) : σ × Option StoreErr :=
  match m.versions.get? key with
  | none => (t, some .keyError)
  | some v => T.set t key v run

/-- The body of the outer loop of `persist_to`, memory.py:91-98. -/
def persistRun (T : Target σ) (m : MemMeta) (t : σ) (p : String × List CKey) : σ × Option StoreErr :=
  each (persistKey T m p.1) t p.2

/-- `InMemoryMetadataStore.persist_to`, memory.py:58-98: the other store afterwards and the exception. -/
def persistTo (T : Target σ) (m : MemMeta) (t : σ) : σ × Option StoreErr :=
  match each T.start t m.runIds with
  | (t, some e) => (t, some e)
  | (t, none) => each (persistRun T m) t m.keysByRun

/-- What `load_from` uses of the other metadata store, memory.py:128-131. -/
structure Source where
  runIds : Except StoreErr (List String)
  getRun : String → Except StoreErr (List MetaRow)

/-- `SQLiteMetadataStore` as a source, sqlite.py:203-266. -/
def sqlSource (s : SqlMeta) : Source := ⟨s.getRunIds, s.getRun⟩

/-- `InMemoryMetadataStore` as a source, memory.py:140-164. -/
def memSource (Z : Codec) (m : MemMeta) : Source := ⟨.ok m.getRunIds, m.getRun Z⟩

/-- The inner loop of `load_from`, memory.py:131-136. -/
def loadRows (m : MemMeta) (run : String) : List MetaRow → Except StoreErr MemMeta
  | [] => .ok m
  | r :: rest =>
    match m.set r.key r.version run with
    | (_, some e) => .error e
    | (m, none) => loadRows m run rest

/-- The outer loop of `load_from`, memory.py:128-136. -/
def loadRuns (src : Source) (m : MemMeta) : List String → Except StoreErr MemMeta
  | [] => .ok m
  | run :: rest =>
    match src.getRun run with
    | .error e => .error e
    | .ok rows =>
      match loadRows (m.initialize run) run rows with
      | .error e => .error e
      | .ok m => loadRuns src m rest

/-- `InMemoryMetadataStore.load_from`, memory.py:100-138. -/
def loadFrom (src : Source) : Except StoreErr MemMeta :=
  match src.runIds with
  | .error e => .error e
  | .ok ids => loadRuns src .empty ids

/-! ### Results -/

variable {V : Type}

/-- `InMemoryResultStore.persist_to` a `FileResultStore`, memory.py:208-218. -/
def persistResults (env : Results.Env V) (m : Results.Mem V) (d : Results.Dir V) : Results.Dir V × Option Results.Err :=
  each (fun d p => Results.Dir.set env d p.1 p.2 none none) d m

/-- Exceptions of loading results: no source of data versions (`ValueError`), or those of the stores. -/
inductive LoadErr where
  | noVersions
  | metadata (e : StoreErr)
  | result (e : Results.Err)
  deriving DecidableEq, Repr

/-- memory.py:269-271: the data versions of all nodes of all runs. -/
def runVersions (src : Source) : List String → Except StoreErr (List String)
  | [] => .ok []
  | run :: rest =>
    match src.getRun run with
    | .error e => .error e
    | .ok rows =>
      match runVersions src rest with
      | .error e => .error e
      | .ok vs => .ok (rows.map (·.version) ++ vs)

/-- `data_versions_to_retrieve`, memory.py:257-271. It is a set; here a list, the order of which has no influence on what the new
store answers. -/
def wanted (metadata : Option Source) (versions : Option (List String)) : Except LoadErr (List String) :=
  match metadata, versions with
  | none, none => .error .noVersions
  | none, some vs => .ok vs
  | some src, vs =>
    match src.runIds with
    | .error e => .error (.metadata e)
    | .ok ids =>
      match runVersions src ids with
      | .error e => .error (.metadata e)
      | .ok ws => .ok (vs.getD [] ++ ws)

/-- The loop of memory.py:273-277; `pyNone` is what `get` returns when there is no result. -/
def loadLoop (pyNone : V) (get : String → Except Results.Err (Option V)) (m : Results.Mem V) :
    List String → Except LoadErr (Results.Mem V)
  | [] => .ok m
  | v :: rest =>
    match get v with
    | .error e => .error (.result e)
    | .ok r => loadLoop pyNone get (m.set v (r.getD pyNone)) rest

/-- `InMemoryResultStore.load_from`, memory.py:220-279, from a store with this `get`. -/
def loadResults (pyNone : V) (get : String → Except Results.Err (Option V)) (metadata : Option Source)
    (versions : Option (List String)) : Except LoadErr (Results.Mem V) :=
  match wanted metadata versions with
  | .error e => .error e
  | .ok vs => loadLoop pyNone get [] vs

end Verif.StoreCopy
