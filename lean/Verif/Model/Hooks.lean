import Verif.Model.Lifecycle

/-!
The node-level hooks of lifecycle adapters: `execute_lifecycle_for_node` (hamilton/execution/graph_functions.py:255-331)
and the parts of `LifecycleAdapterSet` (hamilton/lifecycle/base.py:756-1006) it uses. Only synchronous hooks.
-/
namespace Verif
variable {T V σ : Type}

/-- A lifecycle adapter as seen by a node execution: the identity of the object and the hooks its class implements
(base.py:798-816, 818-846). Hooks may change the state `σ` of the adapters and may raise (`some e`). -/
structure Adapter (T V σ : Type) where
  id : Nat
  /-- `pre_node_execute` -/
  pre : Option (Node T V → Dict Name V → σ → Option UserErr × σ) := none
  /-- `do_node_execute` -/
  exec : Option (Node T V → Dict Name V → σ → Except UserErr V × σ) := none
  /-- `post_node_execute`, called with `success`, `error`, `result` -/
  post : Option (Node T V → Dict Name V → Bool → Option UserErr → Option V → σ → Option UserErr × σ) := none

/-- `_uniqify_adapters`, base.py:773-785: keep the first occurrence of each object. -/
def uniqify (seen : List Nat) : List (Adapter T V σ) → List (Adapter T V σ)
  | [] => []
  | a :: rest => if a.id ∈ seen then uniqify seen rest else a :: uniqify (a.id :: seen) rest

/-- `LifecycleAdapterSet.__init__`, base.py:763-771: `none` is the `ValueError` of two adapters implementing
`do_node_execute`, base.py:832-842. -/
def adapterSet (adapters : List (Adapter T V σ)) : Option (List (Adapter T V σ)) :=
  if (uniqify [] adapters).countP (fun a => a.exec.isSome) > 1 then none else some (uniqify [] adapters)

/-- What happens during node executions, in order: calls of hooks and of the function (or of `do_node_execute`), with
what they were given and how they ended. -/
inductive HookEvent (V : Type) where
  | pre (adapter : Nat) (node : Name) (raised : Option UserErr)
  | body (node : Name) (out : Except UserErr V)
  | post (adapter : Nat) (node : Name) (success : Bool) (error : Option UserErr) (result : Option V) (raised : Option UserErr)

/-- The state of the adapters together with the history of calls. -/
structure HookState (V σ : Type) where
  log : List (HookEvent V)
  st : σ

/-- `call_all_lifecycle_hooks_sync`, base.py:908-915: one hook after the other, an exception ends the loop. -/
def callHooks : List ((Option UserErr → HookEvent V) × (σ → Option UserErr × σ)) → HookState V σ →
    Option UserErr × HookState V σ
  | [], s => (none, s)
  | (ev, hook) :: rest, s =>
    match hook s.st with
    | (some e, t) => (some e, ⟨s.log ++ [ev (some e)], t⟩)
    | (none, t) => callHooks rest ⟨s.log ++ [ev none], t⟩

/-- The `pre_node_execute` hooks of a set, base.py:798-816 and graph_functions.py:282-289. -/
def preHooks (A : List (Adapter T V σ)) (n : Node T V) (kw : Dict Name V) :
    List ((Option UserErr → HookEvent V) × (σ → Option UserErr × σ)) :=
  A.filterMap fun a => a.pre.map fun h => (.pre a.id n.name, h n kw)

/-- The `post_node_execute` hooks of a set, graph_functions.py:316-325. -/
def postHooks (A : List (Adapter T V σ)) (n : Node T V) (kw : Dict Name V) (success : Bool) (error : Option UserErr)
    (result : Option V) : List ((Option UserErr → HookEvent V) × (σ → Option UserErr × σ)) :=
  A.filterMap fun a => a.post.map fun h => (.post a.id n.name success error result, h n kw success error result)

/-- The `finally` block, graph_functions.py:311-331: an exception of a hook replaces the outcome. -/
def finishNode (A : List (Adapter T V σ)) (n : Node T V) (kw : Dict Name V) (success : Bool) (error : Option UserErr)
    (result : Option V) (out : Except UserErr V) (s : HookState V σ) : Except UserErr V × HookState V σ :=
  match callHooks (postHooks A n kw success error result) s with
  | (some e, s') => (.error e, s')
  | (none, s') => (out, s')

/-- The function or `do_node_execute`, graph_functions.py:293-302. -/
def callBody (A : List (Adapter T V σ)) (n : Node T V) (kw : Dict Name V) (s : HookState V σ) :
    Except UserErr V × HookState V σ :=
  match A.findSome? (·.exec) with
  | some h =>
    match h n kw s.st with
    | (r, t) => (r, ⟨s.log ++ [.body n.name r], t⟩)
  | none => (n.fn kw, ⟨s.log ++ [.body n.name (n.fn kw)], s.st⟩)

/-- `execute_lifecycle_for_node`, graph_functions.py:255-331. `isException e` tells whether `e` derives from `Exception`
(and not directly from `BaseException` like `KeyboardInterrupt`): only those are caught at graph_functions.py:290 and 304,
while the `finally` block at graph_functions.py:311 runs in every case, with the initial values of `success`, `error` and
`result` (graph_functions.py:275-278) when nothing was caught. -/
def executeLifecycle (isException : UserErr → Bool) (A : List (Adapter T V σ)) : Runner T V (HookState V σ) := fun n kw s =>
  match callHooks (preHooks A n kw) s with
  | (some e, s1) =>
    if isException e then (.error e, s1)
    else finishNode A n kw true none none (.error e) s1
  | (none, s1) =>
    match callBody A n kw s1 with
    | (.ok v, s2) => finishNode A n kw true none (some v) (.ok v) s2
    | (.error e, s2) =>
      if isException e then finishNode A n kw false (some e) none (.error e) s2
      else finishNode A n kw true none none (.error e) s2

end Verif
