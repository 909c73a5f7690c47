import Verif.Model.Query

/-! What an adapter derived from `GraphExecutionHook` is told to be about to run. -/
namespace Verif
variable {T V : Type}

/-- `GraphExecutionHook.pre_graph_execute`, lifecycle/api.py:296-318: `execution_path` are the names of the nodes upstream of
the requested ones that are not user-defined. `.err` is the exception of `get_upstream_nodes`. -/
def executionPath (fg : FnGraph T V) (finalVars : List Name) (inputs overrides : Option (Dict Name V)) :
    Except QueryErr (List Name) :=
  match getUpstreamNodes fg finalVars inputs overrides with
  | .err e _ => .error e
  | .ok s => .ok (s.nodes.filter (fun n => !s.userNodes.contains n))

end Verif
