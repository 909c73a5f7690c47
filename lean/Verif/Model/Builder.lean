import Verif.Dict
import Verif.Model.Node

/-!
`driver.Builder` (`hamilton/driver.py:1860-2189`) as an object with mutable state: builders and the drivers they build hold
references to configuration dictionaries, which live on a heap.  Modules, materializers, adapters and executors are opaque
objects of the types `M`, `Z`, `A` and `X`.
-/
namespace Verif
variable {V M Z A X : Type}

/-- The attributes of a `Builder`, driver.py:1861-1883. `config` is a reference to a dictionary. -/
structure BuilderState (M Z A X : Type) where
  v2 : Bool
  config : Nat
  modules : List M
  materializers : List Z
  allowOverrides : Bool
  legacyAdapter : Option A
  adapters : List A
  manager : Option X
  localExecutor : Option X
  remoteExecutor : Option X
  grouping : Option X

/-- How a driver executes, driver.py:2145-2161: `none` for a component is the default object created by `build`. -/
inductive Execution (X : Type) where
  | direct
  | managed (manager : X) (grouping : Option X)
  | tasks (localExecutor remoteExecutor grouping : Option X)
  deriving DecidableEq

/-- What `Builder.build` passes to `Driver` (driver.py:2163-2171, 401-462). The driver keeps the reference to the
configuration dictionary (driver.py:462, graph.py:713); the lists are copied (driver.py:341, 410). -/
structure DriverState (M Z A X : Type) where
  config : Nat
  modules : List M
  adapters : List A
  materializers : List Z
  execution : Execution X
  allowOverrides : Bool

/-- The heap of dictionaries, the builders and the drivers. -/
structure World (V M Z A X : Type) where
  heap : List (Dict Name V)
  builders : List (BuilderState M Z A X)
  drivers : List (DriverState M Z A X)

/-- The methods of `Builder` that return the builder. -/
inductive BCall (V M Z A X : Type) where
  | enableDynamic (allowExperimental : Bool)
  | config (d : Dict Name V)
  | modules (ms : List M)
  | adapter (a : A)
  | adapters (as : List A)
  | materializers (zs : List Z)
  | cache (a : A)
  | manager (x : X)
  | remoteExecutor (x : X)
  | localExecutor (x : X)
  | grouping (x : X)
  | allowOverrides

/-- Everything a program can do with builders. -/
inductive BOp (V M Z A X : Type) where
  | new
  | call (i : Nat) (c : BCall V M Z A X)
  | copy (i : Nat)
  | build (i : Nat)

/-- `Builder.__init__`, driver.py:1861-1883; the configuration is a new dictionary. -/
def BuilderState.init (ref : Nat) : BuilderState M Z A X :=
  { v2 := false, config := ref, modules := [], materializers := [], allowOverrides := false, legacyAdapter := none,
    adapters := [], manager := none, localExecutor := none, remoteExecutor := none, grouping := none }

/-- The methods of driver.py:1896-2130 on the builder itself; `none`: `ValueError`. `with_config` also writes to the
dictionary (`configOf`). `isCache` is `isinstance(adapter, HamiltonCacheAdapter)`; the property `cache`
(driver.py:2049-2059) is set if some adapter is a cache. -/
def applyCall (isCache : A → Bool) (b : BuilderState M Z A X) : BCall V M Z A X → Option (BuilderState M Z A X)
  | .enableDynamic allow => if allow then some { b with v2 := true } else none
  | .config _ => some b
  | .modules ms => some { b with modules := b.modules ++ ms }
  | .adapter a => if b.legacyAdapter.isSome then none else some { b with legacyAdapter := some a }
  | .adapters as =>
    if as.any isCache && b.adapters.any isCache then none else some { b with adapters := b.adapters ++ as }
  | .materializers zs => some { b with materializers := b.materializers ++ zs }
  | .cache a => if b.adapters.any isCache then none else some { b with adapters := b.adapters ++ [a] }
  | .manager x =>
    if !b.v2 || b.manager.isSome || b.remoteExecutor.isSome then none else some { b with manager := some x }
  | .remoteExecutor x =>
    if !b.v2 || b.remoteExecutor.isSome || b.manager.isSome then none else some { b with remoteExecutor := some x }
  | .localExecutor x =>
    if !b.v2 || b.localExecutor.isSome || b.manager.isSome then none else some { b with localExecutor := some x }
  | .grouping x => if !b.v2 || b.grouping.isSome then none else some { b with grouping := some x }
  | .allowOverrides => some { b with allowOverrides := true }

/-- What `with_config` writes, driver.py:1910-1918: `self.config.update(config)`. -/
def BCall.updates : BCall V M Z A X → Dict Name V
  | .config d => d
  | _ => []

/-- driver.py:2145-2161. -/
def BuilderState.execution (b : BuilderState M Z A X) : Execution X :=
  if b.v2 then
    match b.manager with
    | some m => .managed m b.grouping
    | none => .tasks b.localExecutor b.remoteExecutor b.grouping
  else .direct

/-- The driver that `build` returns, driver.py:2132-2171: `adapter.append(self.legacy_graph_adapter)` extends the builder's
own list (see `builtState`). -/
def BuilderState.driver (b : BuilderState M Z A X) : DriverState M Z A X :=
  { config := b.config, modules := b.modules, adapters := b.adapters ++ b.legacyAdapter.toList,
    materializers := b.materializers, execution := b.execution, allowOverrides := b.allowOverrides }

/-- The builder after `build`, driver.py:2141-2143. -/
def BuilderState.built (b : BuilderState M Z A X) : BuilderState M Z A X :=
  { b with adapters := b.adapters ++ b.legacyAdapter.toList }

/-- `Builder.copy`, driver.py:2173-2189: a new builder whose configuration is a new dictionary; `_allow_module_overrides` is
not copied. -/
def BuilderState.copied (b : BuilderState M Z A X) (ref : Nat) : BuilderState M Z A X :=
  { b with config := ref, allowOverrides := false }

/-- One operation; a method that raises leaves everything as it was. -/
def World.step (isCache : A → Bool) (w : World V M Z A X) : BOp V M Z A X → World V M Z A X
  | .new => { w with heap := w.heap ++ [[]], builders := w.builders ++ [.init w.heap.length] }
  | .call i c =>
    match w.builders[i]? with
    | none => w
    | some b =>
      match applyCall isCache b c with
      | none => w
      | some b' =>
        { w with
          heap := w.heap.set b.config ((w.heap[b.config]?.getD []).merge c.updates)
          builders := w.builders.set i b' }
  | .copy i =>
    match w.builders[i]? with
    | none => w
    | some b =>
      { w with heap := w.heap ++ [w.heap[b.config]?.getD []], builders := w.builders ++ [b.copied w.heap.length] }
  | .build i =>
    match w.builders[i]? with
    | none => w
    | some b => { w with builders := w.builders.set i b.built, drivers := w.drivers ++ [b.driver] }

/-- A program: a sequence of operations. -/
def World.run (isCache : A → Bool) (w : World V M Z A X) (ops : List (BOp V M Z A X)) : World V M Z A X :=
  ops.foldl (World.step isCache) w

/-- The start of a program. -/
def World.empty : World V M Z A X := { heap := [], builders := [], drivers := [] }

end Verif
