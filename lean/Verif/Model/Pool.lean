/-!
Pool executors: hamilton/execution/executors.py:212-269 (`PoolExecutor`).
-/
namespace Verif

/-- `PoolExecutor`, executors.py:217-221. Futures are numbered in the order of their creation.  `max_tasks` is taken
nonnegative. -/
structure Pool where
  active : List Nat
  initialized : Bool
  maxTasks : Nat

/-- `_prune_active_futures`, executors.py:223-224; `done f` is `f.done()` at that time. -/
def Pool.prune (p : Pool) (done : Nat → Bool) : Pool := { p with active := p.active.filter (fun f => !done f) }

/-- `can_submit_task`, executors.py:262-269. -/
def Pool.canSubmit (p : Pool) (done : Nat → Bool) : Bool × Pool :=
  (decide ((p.prune done).active.length < (p.prune done).maxTasks), p.prune done)

/-- `submit_task`, executors.py:250-260, creating future number `f`. -/
def Pool.submit (p : Pool) (f : Nat) : Pool := { p with active := p.active ++ [f] }

/-- `init`, executors.py:234-240; `none` is the RuntimeError. -/
def Pool.init (p : Pool) : Option Pool := if p.initialized then none else some { p with initialized := true }

/-- `finalize`, executors.py:242-248; `shutdown` waits for all futures. -/
def Pool.finalize (p : Pool) : Option Pool := if p.initialized then some { p with initialized := false } else none

/-- What can happen to a pool: a future completes, the loop asks for room, the loop submits. -/
inductive PoolEvent where
  | complete (f : Nat)
  | ask
  | submit

/-- The world around a pool: futures created so far, those completed, and whether the last question was answered yes and
not yet used (the loop asks right before it submits, executors.py:380-390). -/
structure PoolWorld where
  pool : Pool
  created : Nat
  completed : List Nat
  granted : Bool

/-- `f.done()` in this world. -/
def PoolWorld.isDone (w : PoolWorld) (f : Nat) : Bool := w.completed.contains f

/-- One event; a submission happens only when room was granted. -/
def PoolWorld.step (w : PoolWorld) : PoolEvent → PoolWorld
  | .complete f => { w with completed := f :: w.completed }
  | .ask => { w with pool := (w.pool.canSubmit w.isDone).2, granted := (w.pool.canSubmit w.isDone).1 }
  | .submit => if w.granted then
      { w with pool := w.pool.submit w.created, created := w.created + 1, granted := false }
    else w

/-- A new executor, executors.py:217-221. -/
def PoolWorld.start (maxTasks : Nat) : PoolWorld := ⟨⟨[], false, maxTasks⟩, 0, [], false⟩

end Verif
