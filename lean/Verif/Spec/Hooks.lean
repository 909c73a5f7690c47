import Verif.Model.Hooks

/-! What node-level hooks are meant to do, as a grammar of histories. -/
namespace Verif
variable {T V σ : Type}

/-- The adapters that want to be told before a node runs. -/
def preIds (A : List (Adapter T V σ)) : List Nat := (A.filter fun a => a.pre.isSome).map (·.id)
/-- The adapters that want to be told after a node ran. -/
def postIds (A : List (Adapter T V σ)) : List Nat := (A.filter fun a => a.post.isSome).map (·.id)

/-- What is told after a node ran. -/
def told (id : Nat) (name : Name) : Except UserErr V → Option UserErr → HookEvent V
  | .ok v, raised => .post id name true none (some v) raised
  | .error e, raised => .post id name false (some e) none raised

/-- The history of one node execution, and how it ends. -/
inductive NodeRun (A : List (Adapter T V σ)) (name : Name) : List (HookEvent V) → Except UserErr V → Prop
  /-- a hook before the node raises: nothing else is called -/
  | preFail (before : List Nat) (id : Nat) (after : List Nat) (e : UserErr) : preIds A = before ++ id :: after →
      NodeRun A name (before.map (fun i => .pre i name none) ++ [.pre id name (some e)]) (.error e)
  /-- every hook before the node, the node, every hook after it with what the node did -/
  | done (r : Except UserErr V) :
      NodeRun A name ((preIds A).map (fun i => .pre i name none) ++ [.body name r] ++ (postIds A).map (fun i => told i name r none)) r
  /-- the same, but a hook after the node raises: the later ones are not called -/
  | postFail (r : Except UserErr V) (before : List Nat) (id : Nat) (after : List Nat) (e : UserErr) :
      postIds A = before ++ id :: after →
      NodeRun A name ((preIds A).map (fun i => .pre i name none) ++ [.body name r] ++ before.map (fun i => told i name r none) ++
        [told id name r (some e)]) (.error e)

/-- Nothing but exceptions deriving from `Exception` was raised. -/
def Ordinary (isException : UserErr → Bool) : HookEvent V → Prop
  | .pre _ _ (some e) => isException e = true
  | .body _ (.error e) => isException e = true
  | .post _ _ _ _ _ (some e) => isException e = true
  | _ => True

/-- The history of a run: one node execution per call, where only the last one may have failed. -/
inductive RunHistory (A : List (Adapter T V σ)) : List (Name × Dict Name V) → List (HookEvent V) → Option (Name × UserErr) → Prop
  | nil : RunHistory A [] [] none
  | ok {calls log evs k kw v} : RunHistory A calls log none → NodeRun A k evs (.ok v) →
      RunHistory A (calls ++ [(k, kw)]) (log ++ evs) none
  | fail {calls log evs k kw e} : RunHistory A calls log none → NodeRun A k evs (.error e) →
      RunHistory A (calls ++ [(k, kw)]) (log ++ evs) (some (k, e))

end Verif
