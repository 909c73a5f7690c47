import Verif.Model.Node

/-!
Which nodes of a function a decorator transforms (`hamilton/function_modifiers/base.py`, `NodeTransformer`), and pruning a
list of nodes to the ones needed for a selection (`hamilton/function_modifiers/recursive.py`, `prune_nodes`).
-/
namespace Verif

/-- What these functions look at in a node (node.py:44-124): its name, the names of its parameters, whether its
`hamilton.non_final_node` tag is truthy (base.py:363, 435), everything else that `Node.__eq__` compares (`data`: type,
documentation, tags, role …, node.py:238-255) and the rest, which it does not compare (`body`: the callable and the input
types). -/
structure TNode where
  name : Name
  params : List Name
  nonFinal : Bool
  data : Nat
  body : Nat
  deriving DecidableEq, Repr

/-- `Node.__eq__`, node.py:238-255: neither the callable nor the parameters are compared. -/
def TNode.pyEq (a b : TNode) : Bool := a.name == b.name && a.nonFinal == b.nonFinal && a.data == b.data

/-- `TargetType`, base.py:359: `None`, `...`, a name, a collection of names (a list here). -/
inductive Target where
  | sinks
  | all
  | name (n : Name)
  | names (ns : List Name)
  deriving DecidableEq, Repr

/-- `InvalidDecoratorException` of base.py:455, 460-463 and 563-567. -/
inductive TargetErr where
  | notFound
  | notAllFound
  | notSingle
  deriving DecidableEq, Repr

/-- `_extract_final_nodes`, base.py:418-436. -/
def extractFinal (nodes : List TNode) : List TNode :=
  let nonFinal := nodes.flatMap (·.params)
  nodes.filter (fun n => !nonFinal.contains n.name && !n.nonFinal)

/-- `select_nodes`, base.py:438-466. -/
def selectNodes : Target → List TNode → Except TargetErr (List TNode)
  | .sinks, nodes => .ok (extractFinal nodes)
  | .all, nodes => .ok nodes
  | .name t, nodes =>
    let out := nodes.filter (fun n => n.name == t)
    if out.length = 0 then .error .notFound else .ok out
  | .names ts, nodes =>
    let out := nodes.filter (fun n => ts.contains n.name)
    if out.length ≠ ts.length then .error .notAllFound else .ok out

/-- `compliment`, base.py:468-480: `in` compares by `Node.__eq__`. -/
def complimentNodes (all chosen : List TNode) : List TNode := all.filter (fun n => !chosen.any (fun m => n.pyEq m))

/-- `transform_targets`, base.py:482-499; `f` is the decorator's `transform_node`. -/
def transformTargets (f : TNode → List TNode) (targets : List TNode) : List TNode := targets.flatMap f

/-- `transform_dag`, base.py:501-516. -/
def transformDag (f : TNode → List TNode) (target : Target) (nodes : List TNode) : Except TargetErr (List TNode) :=
  match selectNodes target nodes with
  | .error e => .error e
  | .ok chosen => .ok (complimentNodes nodes chosen ++ transformTargets f chosen)

/-- `transform_dag` of a `SingleNodeNodeTransformer`, base.py:537-568: the target is `None` and there must be one sink. -/
def transformDagSingle (f : TNode → List TNode) (nodes : List TNode) : Except TargetErr (List TNode) :=
  match selectNodes .sinks nodes with
  | .error e => .error e
  | .ok chosen =>
    if chosen.length ≠ 1 then .error .notSingle
    else .ok (complimentNodes nodes chosen ++ transformTargets f chosen)

/-! ### Pruning -/

/-- `{node_.name: node_ for node_ in nodes}`, recursive.py:618: the last node of a name wins. -/
def nodeNameMap (nodes : List TNode) : Dict Name TNode := nodes.foldl (fun d n => d.set n.name n) []

/-- The inner loop, recursive.py:625-629. -/
def pushDeps (m : Dict Name TNode) : List Name → List TNode → List Name → List TNode × List Name
  | [], stack, seen => (stack, seen)
  | d :: ds, stack, seen =>
    if seen.contains d then pushDeps m ds stack seen
    else match m.get? d with
      | none => pushDeps m ds stack seen
      | some n => pushDeps m ds (stack ++ [n]) (seen ++ [d])

/-- The loop of recursive.py:622-629, with fuel for the number of rounds; `stack.pop()` takes the last element.
`none`: out of fuel (does not happen, `Verif.C42_prune`). -/
def pruneLoop (m : Dict Name TNode) : Nat → List TNode → List Name → List TNode → Option (List TNode)
  | fuel, stack, seen, out =>
    match stack.getLast? with
    | none => some out
    | some n =>
      match fuel with
      | 0 => none
      | fuel + 1 =>
        let (stack', seen') := pushDeps m n.params stack.dropLast seen
        pruneLoop m fuel stack' seen' (out ++ [n])

/-- Result of `prune_nodes`: the nodes, or the `ValueError` of recursive.py:631-635. -/
inductive PruneOut where
  | nodes (ns : List TNode)
  | missing
  deriving DecidableEq, Repr

/-- `prune_nodes`, recursive.py:605-636.  The initial stack is `list({...})` of a set: its order is unspecified, so it is a
parameter of the model (`initial`). -/
def pruneNodes (nodes : List TNode) (select : Option (List Name)) (initial : List TNode) (fuel : Nat) : Option PruneOut :=
  match select with
  | none => some (.nodes nodes)
  | some sel =>
    match pruneLoop (nodeNameMap nodes) fuel initial sel [] with
    | none => none
    | some out => if sel.all (fun s => (out.map (·.name)).contains s) then some (.nodes out) else some .missing

/-- The possible orders of the initial stack, recursive.py:620: the nodes of the selected names that exist, each once. -/
structure InitialStack (nodes : List TNode) (sel : List Name) (initial : List TNode) : Prop where
  nodup : (initial.map (·.name)).Nodup
  mem : ∀ n, n ∈ initial ↔ n.name ∈ sel ∧ (nodeNameMap nodes).get? n.name = some n

end Verif
