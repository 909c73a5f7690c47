import Verif.Model.Lifecycle

/-!
`GracefulErrorAdapter` (hamilton/lifecycle/default.py:580-757) for nodes that are not Parallelizable.
-/
namespace Verif
variable {T V : Type}

/-- The settings of the adapter, default.py:586-592 and 693-696. `same v` is the test of default.py:733-734 (`v` has the type of
the sentinel and is equal to it); `catches e` tells whether `e` is an instance of `error_to_catch`; `accepts k` whether
node `k` carries the tag set by `@accept_error_sentinels` (default.py:728). -/
structure Graceful (V : Type) where
  sentinel : V
  same : V → Bool
  catches : UserErr → Bool
  allowInjection : Bool := true
  accepts : Name → Bool := fun _ => false

/-- `run_to_execute_node` with `is_expand = False`, default.py:698-742. -/
def Graceful.execute (c : Graceful V) (n : Node T V) (kw : Dict Name V) : Except UserErr V :=
  let canInject := c.accepts n.name && c.allowInjection
  if !canInject && kw.any (fun p => c.same p.2) then .ok c.sentinel
  else
    match n.fn kw with
    | .ok v => .ok v
    | .error e => if c.catches e then .ok c.sentinel else .error e

/-- `execute_lifecycle_for_node` when the only adapter is this one (graph_functions.py:293-300, lifecycle/api.py:509-525). -/
def Graceful.runner (c : Graceful V) {σ : Type} : Runner T V σ := fun n kw t => (c.execute n kw, t)

end Verif
