import Verif.Model.Driver

/-!
Execution on a cluster (C75).  With `RayGraphAdapter` (hamilton/plugins/h_ray.py:55-173), and in the same way with
`RayWorkflowGraphAdapter` and `DaskGraphAdapter(use_delayed=True)` (hamilton/plugins/h_dask.py:129-175), `execute` runs in two
phases.  First the graph is walked in the process of the driver as usual (graph_functions.py:178-251), but instead of calling
the function of a node, the call is handed to the cluster and its *reference* (a Ray `ObjectRef`, a Dask `Delayed`) is stored as
the result of the node; references are passed on as arguments.  Then the cluster runs the calls, each once its arguments are
there, and the result builder is run on the values of the outputs.

Not modelled: serialization of values and functions, resources and options of a call, retries, hooks run on the workers, and
inputs that are references themselves.
-/
namespace Verif
variable {T V B : Type}

/-- What the walk stores for a node: a value that was given (an input or an override), or the reference that the cluster gave
for the call of a function (h_ray.py:150 `.remote(**kwargs)`, h_ray.py:252 `.bind(**kwargs)`, h_dask.py:143-146
`delayed(...)(...)`).  Simplification: a reference is named by the node; it determines the call, since every node is submitted
at most once (`C75_submitted_once`). -/
inductive Obj (V : Type) where
  | val (v : V)
  | ref (k : Name)
  deriving DecidableEq, Repr

/-- Names that cannot be passed as keyword arguments to `RayGraphAdapter`, since they are passed besides the arguments of the
function: `call_lifecycle_method_sync(self, method_name, **kwargs)` (lifecycle/base.py:937) is called with `node=` and
`execute_lifecycle_for_node=` (graph_functions.py:215-220).  Python raises a `TypeError`. -/
def rayReserved : List Name := ["self", "method_name", "node", "execute_lifecycle_for_node"]

/-- The same for `DaskGraphAdapter.execute_node`, h_dask.py:143-146. -/
def daskReserved : List Name := ["dask_key_name"]

/-- `do_remote_execute`, h_ray.py:136-150, as it is called in graph_functions.py:214-220: returns the reference of the call,
or raises because an argument has a reserved name. -/
def remoteNode (reserved : List Name) (n : Node T V) : Node T (Obj V) :=
  { name := n.name, typ := n.typ, kind := n.kind, inputTypes := n.inputTypes, dependencies := n.dependencies,
    dependedOnBy := n.dependedOnBy,
    fn := fun kw => if kw.keys.any (fun k => reserved.contains k) then .error "TypeError" else .ok (.ref n.name) }

/-- The graph as the walk of the driver sees it: same nodes, every function is handed to the cluster
(graph_functions.py:214). -/
def remoteGraph (reserved : List Name) (g : Graph T V) : Graph T (Obj V) :=
  g.map (fun p => (p.1, remoteNode reserved p.2))

/-- Inputs and overrides are values (graph_functions.py:184, 199). -/
def valDict (d : Dict Name V) : Dict Name (Obj V) := d.map (fun p => (p.1, .val p.2))

/-- First phase: `DefaultGraphExecutor.execute` (driver.py:164-183) with such an adapter; the outputs are values and
references. -/
def remoteWalk (reserved : List Name) (fg : FnGraph T V) (finalVars : List Name) (overrides inputs : Dict Name V) :
    Except DriverErr (Dict Name (Option (Obj V))) :=
  defaultExecutorExecute ⟨remoteGraph reserved fg.nodes, valDict fg.config⟩ finalVars (valDict overrides) (valDict inputs)

/-- The calls handed to the cluster in the first phase, oldest first, with their arguments (graph_functions.py:215-220).
If the walk stops because of a reserved name, the last one is the call that was refused. -/
def submissions (reserved : List Name) (fg : FnGraph T V) (finalVars : List Name) (overrides inputs : Dict Name V) :
    List (Name × Dict Name (Obj V)) :=
  (executeSubdag (remoteGraph reserved fg.nodes)
    (finalVars.filterMap (fun k => (remoteGraph reserved fg.nodes).get? k))
    ((valDict fg.config).merge (valDict inputs)) (valDict overrides)).state.calls

/-- State of the cluster: results of the calls that ended, by reference, and a ghost trace of the calls of functions, with their
arguments, oldest first. -/
structure Cluster (V : Type) where
  res : Dict Name (Except UserErr V)
  ran : List (Name × Dict Name V)

/-- Nothing has been run. -/
def Cluster.init : Cluster V := ⟨[], []⟩

/-- The value behind an argument, if it is there. -/
def valueOf (res : Dict Name (Except UserErr V)) : Obj V → Option V
  | .val v => some v
  | .ref k => match res.get? k with
    | some (.ok v) => some v
    | _ => none

/-- The exception behind an argument: the call that should produce it has failed. -/
def errorOf (res : Dict Name (Except UserErr V)) : Obj V → Option UserErr
  | .val _ => none
  | .ref k => match res.get? k with
    | some (.error e) => some e
    | _ => none

/-- All values of a dictionary, if they are all there: Ray and Dask replace the references among the arguments by their values
before they run a call. -/
def gather {α β : Type} (f : α → Option β) : Dict Name α → Option (Dict Name β)
  | [] => some []
  | (k, a) :: r => match f a, gather f r with
    | some b, some r' => some ((k, b) :: r')
    | _, _ => none

/-- A step of the cluster. `run k`: a worker runs the call `k`; `fail k p`: the call `k` is given up because its argument `p`
has failed (its exception is passed on, Ray and Dask do not say which one if there are several). -/
inductive Move where
  | run (k : Name)
  | fail (k p : Name)
  deriving DecidableEq, Repr

/-- The effect of a move; a move that is not possible (unknown call, ended already, arguments not there) changes nothing. The
worker runs the function of the node with the values of the arguments (`execute_lifecycle_for_node`, graph_functions.py:255-331,
without hooks; h_ray.py:150, h_dask.py:143). -/
def Cluster.step (g : Graph T V) (subs : List (Name × Dict Name (Obj V))) (s : Cluster V) : Move → Cluster V
  | .run k =>
    match s.res.get? k, Dict.get? subs k, g.get? k with
    | none, some kw, some n =>
      match gather (valueOf s.res) kw with
      | some args => ⟨s.res.set k (n.fn args), s.ran ++ [(k, args)]⟩
      | none => s
    | _, _, _ => s
  | .fail k p =>
    match s.res.get? k, Dict.get? subs k with
    | none, some kw =>
      match (Dict.get? kw p).bind (errorOf s.res) with
      | some e => ⟨s.res.set k (.error e), s.ran⟩
      | none => s
    | _, _ => s

/-- The cluster after any sequence of moves: the order in which calls are run is not known. -/
def Cluster.after (g : Graph T V) (subs : List (Name × Dict Name (Obj V))) (moves : List Move) : Cluster V :=
  moves.foldl (Cluster.step g subs) .init

/-- The value behind an output; an output may be missing (`None`, graph.py:1103-1106). -/
def outputOf (res : Dict Name (Except UserErr V)) : Option (Obj V) → Option (Option V)
  | none => some none
  | some o => (valueOf res o).map some

/-- Second phase: `do_build_result`, h_ray.py:152-165 (h_ray.py:254-267 and h_dask.py:148-175 likewise): the result builder is
run on the cluster with the values of the outputs, and its result is fetched; if outputs have failed, the exception of one of them
(`p`) is raised. `none`: the outputs are not there yet. -/
def fetchResult (res : Dict Name (Except UserErr V)) (build : Dict Name (Option V) → Except UserErr B)
    (outputs : Dict Name (Option (Obj V))) (p : Name) : Option (Except UserErr B) :=
  match gather (outputOf res) outputs with
  | some out => some (build out)
  | none => (((Dict.get? outputs p).bind id).bind (errorOf res)).map .error

end Verif
