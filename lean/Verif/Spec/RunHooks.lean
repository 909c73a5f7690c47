import Verif.Model.RunHooks

/-!
What the run-level hooks of a set of adapters should be told, said without the loops of the model: one event per adapter
that implements the hook, in the order of the adapters.
-/
namespace Verif
variable {G V R σ : Type}

/-- No two adapters of the set are equal (`==`). -/
def NoEqualAdapters (A : List (RunAdapter G V R σ)) : Prop := (A.map (·.eqKey)).Nodup

instance (A : List (RunAdapter G V R σ)) : Decidable (NoEqualAdapters A) :=
  inferInstanceAs (Decidable (A.map (·.eqKey)).Nodup)

/-- Every adapter with a `pre_graph_execute` was told about the run and returned. -/
def toldBefore (A : List (RunAdapter G V R σ)) (c : RunCall G) : List (RunEvent G V R) :=
  (A.filter (fun a => a.pre.isSome)).map fun a => .pre a.id c none

/-- Every adapter with a `post_graph_execute` was told about the end of the run and returned. -/
def toldAfter (A : List (RunAdapter G V R σ)) (runId : String) (r : RunReport G V R) : List (RunEvent G V R) :=
  (A.filter (fun a => a.post.isSome)).map fun a => .post a.id runId r none

/-- Every adapter with a `pre_task_execute` was told about the task and returned. -/
def toldBeforeTask (A : List (RunAdapter G V R σ)) (task : String) : List (RunEvent G V R) :=
  (A.filter (fun a => a.preTask.isSome)).map fun a => .preTask a.id task none

/-- Every adapter with a `post_task_execute` was told about the end of the task and returned. -/
def toldAfterTask (A : List (RunAdapter G V R σ)) (task : String) (success : Bool) (error : Option RunErr)
    (results : Option (Dict Name V)) : List (RunEvent G V R) :=
  (A.filter (fun a => a.postTask.isSome)).map fun a => .postTask a.id task success error results none

/-- Every adapter with a `post_graph_construct` was given the graph and returned. -/
def toldConstructed (A : List (RunAdapter G V R σ)) (g : G) : List (RunEvent G V R) :=
  (A.filter (fun a => a.postConstruct.isSome)).map fun a => .postConstruct a.id g none

/-- Every adapter with a `pre_do_anything` was called and returned. -/
def toldFirst (A : List (RunAdapter G V R σ)) : List (RunEvent G V R) :=
  (A.filter (fun a => a.preDo.isSome)).map fun a => .preDo a.id none

/-- Who was asked to judge what, and the verdict: the node, or `none` for the whole graph. -/
def judged : RunEvent G V R → Option (Nat × Option Name × Option Bool)
  | .validateNode a n v => some (a, some n, v.map (·.1))
  | .validateGraph a v => some (a, none, v.map (·.1))
  | _ => none

/-- Every node validator accepted every node, then every graph validator accepted the graph. -/
def allAccepted (A : List (RunAdapter G V R σ)) (nodes : List Name) : List (Option (Nat × Option Name × Option Bool)) :=
  (nodes.flatMap fun n => (A.filter (fun a => a.validateNode.isSome)).map fun a => some (a.id, some n, some true)) ++
  (A.filter (fun a => a.validateGraph.isSome)).map fun a => some (a.id, none, some true)

/-- The message with which a validator rejected the node, if the event is that. -/
def rejection (n : Name) : RunEvent G V R → Option (Option String)
  | .validateNode _ n' (some (false, msg)) => if n' = n then some msg else none
  | _ => none

/-- The messages with which validators rejected the node. -/
def rejections (n : Name) (L : List (RunEvent G V R)) : List (Option String) := L.filterMap (rejection n)

/-- The message with which a validator rejected the graph, if the event is that. -/
def graphRejection : RunEvent G V R → Option (Option String)
  | .validateGraph _ (some (false, msg)) => some msg
  | _ => none

/-- The messages with which validators rejected the graph. -/
def graphRejections (L : List (RunEvent G V R)) : List (Option String) := L.filterMap graphRejection

/-- No run-level hook of the set raises. -/
structure QuietHooks (A : List (RunAdapter G V R σ)) : Prop where
  pre : ∀ a ∈ A, ∀ h, a.pre = some h → ∀ c t, (h c t).1 = none
  post : ∀ a ∈ A, ∀ h, a.post = some h → ∀ i r t, (h i r t).1 = none
  preTask : ∀ a ∈ A, ∀ h, a.preTask = some h → ∀ i t, (h i t).1 = none
  postTask : ∀ a ∈ A, ∀ h, a.postTask = some h → ∀ i b e r t, (h i b e r t).1 = none
  postConstruct : ∀ a ∈ A, ∀ h, a.postConstruct = some h → ∀ g t, (h g t).1 = none

/-- What the result builder of the set, if there is one, makes of the outputs in a given world. -/
def builtFrom (A : List (RunAdapter G V R σ)) (d : Dict Name V) (t : σ) : Except UserErr (RunResult V R) :=
  match A.findSome? (·.build) with
  | none => .ok (.dict d)
  | some b =>
    match (b d t).1 with
    | .error e => .error e
    | .ok r => .ok (.built r)

/-- The run without any hook, in a given world: compute, then build the result. -/
def plainRun (A : List (RunAdapter G V R σ)) (body : RunBody V σ) (t : σ) : Except UserErr (RunResult V R) :=
  match body t with
  | (.error e, _) => .error e
  | (.ok d, t') => builtFrom A d t'

/-- The outcome of a call told to the adapters: success with the results, or failure with the exception. -/
def Tells (r : RunReport G V R) (g : G) (out : Except RunErr (RunResult V R)) : Prop :=
  r.graph = g ∧
  match out with
  | .ok v => r.success = true ∧ r.error = none ∧ r.results = some v
  | .error e => r.success = false ∧ r.error = some e

/-- The event is the run of the graph or the building of its result. -/
def isWork : RunEvent G V R → Bool
  | .body _ => true
  | .build .. => true
  | _ => false

end Verif
