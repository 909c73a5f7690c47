import Verif.Model.Query
import Verif.Model.Topo

/-!
Grouping of nodes into tasks: hamilton/execution/grouping.py.
-/
namespace Verif
variable {T V : Type}

/-- `NodeGroupPurpose`, grouping.py:16-32. -/
inductive Purpose where
  | expand
  | gather
  | block
  | single
  deriving DecidableEq, Repr

/-- `NodeGroup`, grouping.py:35-75 (`available_nodes` is derived from `nodes`). -/
structure NodeGroup (T V : Type) where
  baseId : Name
  spawning : Option Name
  nodes : List (Node T V)
  purpose : Purpose

/-- `TaskSpec`, grouping.py:78-119, without the adapter. -/
structure TaskSpec (T V : Type) extends NodeGroup T V where
  /-- `outputs_to_compute` -/
  outputs : List Name
  overrides : Dict Name V
  /-- `base_dependencies` -/
  baseDeps : List Name

/-- What the task machinery needs to know of types and values: `isCollect t` is
`typing_inspect.get_origin(t) == Collect` (node.py:135), `toList v` is `list(v)` (`none`: TypeError), `ofList` is the
Python list of the given values. -/
structure TaskOps (T V : Type) where
  isCollect : T → Bool
  toList : V → Option (List V)
  ofList : List V → V

/-- `Node.requires`, node.py:155-164. -/
def Node.requires (n : Node T V) (d : Name) : Bool :=
  match n.inputTypes.get? d with
  | some (_, .required) => true
  | _ => false

/-- `Node.collect_dependency`, node.py:127-136, for a collect node: the first parameter of type `Collect[...]`. -/
def collectDependency (ops : TaskOps T V) (n : Node T V) : Option Name :=
  (n.inputTypes.find? (fun p => ops.isCollect p.2.1)).map (·.1)

/-- `get_expander_node`, grouping.py:59-64. -/
def expanderNode (nodes : List (Node T V)) : Option (Node T V) := nodes.find? (fun n => n.kind == .expand)

/-- `get_collector_node`, grouping.py:66-71. -/
def collectorNode (nodes : List (Node T V)) : Option (Node T V) := nodes.find? (fun n => n.kind == .collect)

/-- `GroupByRepeatableBlocks.nodes_after_last_expand_block`, grouping.py:174-192: the expander found and the node
objects between.  `none` for the expander: there is none. -/
def nodesAfterLastExpand (g : Graph T V) (collector : Node T V) :
    Option (Node T V) × List (Node T V) :=
  let s := (nodesBetween g collector (fun n => n.kind == .expand)).state.1
  (s.found.bind (fun k => g.get? k), s.out.filterMap (fun k => g.get? k))

/-- State of the loop of grouping.py:208-245. -/
structure BlockAcc (T V : Type) where
  groups : List (NodeGroup T V)
  visited : List Name

/-- Body of the loop grouping.py:210-245.  `none` is the AttributeError of line 216 (a collect node with no expand node
above). -/
def groupCollector (g : Graph T V) (nodeNames : List Name) (acc : BlockAcc T V) (collector : Node T V) :
    Option (BlockAcc T V) :=
  match nodesAfterLastExpand g collector with
  | (none, _) => none
  | (some e, blockNodes) =>
    let expanderName := "expand-" ++ e.name
    let acc := if nodeNames.contains e.name then
        { groups := acc.groups ++
            [{ baseId := "expand-" ++ e.name, spawning := none, nodes := [e], purpose := .expand },
             { baseId := "block-" ++ e.name, spawning := some expanderName, nodes := blockNodes,
               purpose := .block }],
          visited := acc.visited ++ (blockNodes.map (·.name) ++ [e.name]) }
      else acc
    some
      { groups := acc.groups ++
          [{ baseId := "collect-" ++ e.name, spawning := some expanderName, nodes := [collector], purpose := .gather }],
        visited := acc.visited ++ [collector.name] }

/-- `GroupByRepeatableBlocks.group_nodes`, grouping.py:194-257. -/
def groupByRepeatableBlocks (g : Graph T V) (nodes : List (Node T V)) : Option (List (NodeGroup T V)) :=
  ((nodes.filter (fun n => n.kind == .collect)).foldlM
      (groupCollector g (nodes.map (·.name))) (⟨[], []⟩ : BlockAcc T V)).map fun acc =>
    acc.groups ++ (nodes.filter (fun n => !acc.visited.contains n.name)).map (fun n =>
      { baseId := n.name, spawning := none, nodes := [n], purpose := .single })

/-- `convert_node_type_to_group_purpose`, grouping.py:260-266. -/
def purposeOfKind : NodeKind → Purpose
  | .expand => .expand
  | .collect => .gather
  | _ => .block

/-- `GroupNodesIndividually.group_nodes`, grouping.py:269-281. -/
def groupIndividually (nodes : List (Node T V)) : List (NodeGroup T V) :=
  nodes.map (fun n => { baseId := n.name, spawning := none, nodes := [n], purpose := purposeOfKind n.kind })

/-- `GroupNodesAllAsOne.group_nodes`, grouping.py:284-295; `none` is the IndexError of `nodes[0]`. -/
def groupAllAsOne (nodes : List (Node T V)) : Option (List (NodeGroup T V)) :=
  match nodes with
  | [] => none
  | n :: _ => some [{ baseId := "root", spawning := none, nodes := nodes, purpose := purposeOfKind n.kind }]

/-- The nodes of level `i`, in the order of `get_node_levels`, grouping.py:304-307. -/
def levelBucket (nodes : List (Node T V)) (levels : Dict Name Nat) (i : Nat) : List (Node T V) :=
  (levels.filter (fun p => p.2 == i)).filterMap (fun p => nodes.find? (fun n => n.name == p.1))

/-- `GroupNodesByLevel.group_nodes`, grouping.py:298-317.  `len(nodes_by_level)` is the number of distinct levels. `none`
stands for the exceptions of the two functions called. -/
def groupByLevel (nodes : List (Node T V)) : Option (List (NodeGroup T V)) :=
  (topologicallySortNodes nodes).bind fun inOrder =>
  (getNodeLevels inOrder).map fun levels =>
    (List.range (levels.map (·.2)).eraseDups.length).map (fun i =>
      { baseId := "level_" ++ toString i, spawning := none, nodes := levelBucket nodes levels i, purpose := .block })

/-- The test of grouping.py:358-366: is node `n` of a group (names `inGroup`) an output of the group? -/
def isTaskOutput (requested : List Name) (overrides : Dict Name V) (inGroup : List Name) (n : Node T V) : Bool :=
  requested.contains n.name ||
    n.dependedOnBy.any (fun m => !overrides.has m && !inGroup.contains m)

/-- The overrides of one task, grouping.py:375-379. -/
def taskOverride (overrides : Dict Name V) (o : Dict Name V) (n : Node T V) : Dict Name V :=
  match overrides.get? n.name with
  | some v => o.set n.name v
  | none => o

/-- First loop of `create_task_plan`, grouping.py:346-382: the task for one group, no dependencies yet. -/
def taskOfGroup (requested : List Name) (overrides : Dict Name V) (gr : NodeGroup T V) : TaskSpec T V :=
  { gr with
    outputs := (gr.nodes.filter (fun n => !overrides.has n.name &&
      isTaskOutput requested overrides (gr.nodes.map (·.name)) n)).map (·.name),
    overrides := gr.nodes.foldl (taskOverride overrides) [],
    baseDeps := [] }

/-- `node_to_task_map`, grouping.py:345-356: the last group that contains the node wins. -/
def nodeToTask (overrides : Dict Name V) (groups : List (NodeGroup T V)) : Dict Name Name :=
  groups.foldl (fun m gr => gr.nodes.foldl (fun (m : Dict Name Name) n =>
    if overrides.has n.name then m else m.set n.name gr.baseId) m) []

/-- Innermost loop body of grouping.py:392-403, for dependency `d` of node `n`; `none` is the ValueError of line 399. -/
def planDep (overrides : Dict Name V) (n2t : Dict Name Name) (inGroup : List Name) (n : Node T V)
    (deps : List Name) (d : Name) : Option (List Name) :=
  if !overrides.has d && !inGroup.contains d then
    match n2t.get? d with
    | none => if !n.requires d then some deps else none
    | some t => some (setAdd deps t)
  else some deps

/-- Loop of grouping.py:389-403 over the nodes of one task. -/
def planNode (overrides : Dict Name V) (n2t : Dict Name Name) (inGroup : List Name) (deps : List Name)
    (n : Node T V) : Option (List Name) :=
  if overrides.has n.name then some deps
  else n.dependencies.foldlM (planDep overrides n2t inGroup n) deps

/-- `create_task_plan`, grouping.py:320-405; `none` is the ValueError.  (`base_dependencies` is a set turned into a list;
here in order of first occurrence.) -/
def createTaskPlan (groups : List (NodeGroup T V)) (requested : List Name) (overrides : Dict Name V) :
    Option (List (TaskSpec T V)) :=
  groups.mapM (fun gr =>
    (gr.nodes.foldlM (planNode overrides (nodeToTask overrides groups) (gr.nodes.map (·.name))) []).map fun deps =>
      { taskOfGroup requested overrides gr with baseDeps := deps })

/-- `TaskSpec.get_input_vars`, grouping.py:92-119: required and optional variables. -/
structure InputVars where
  required : List Name
  optional : List Name

/-- `dep.user_defined` for the dependency named `d`, grouping.py:111. -/
def isExternalName (g : Graph T V) (d : Name) : Bool :=
  match g.get? d with
  | some dn => dn.userDefined
  | none => false

/-- Innermost loop body, grouping.py:108-117. -/
def inputVarsDep (g : Graph T V) (overrides : Dict Name V) (inTask : List Name) (n : Node T V)
    (iv : InputVars) (d : Name) : InputVars :=
  if overrides.has d then iv
  else if isExternalName g d || !inTask.contains d then
    if n.requires d then { required := setAdd iv.required d, optional := iv.optional.filter (fun x => x != d) }
    else { iv with optional := setAdd iv.optional d }
  else iv

/-- Loop body, grouping.py:101-117. -/
def inputVarsNode (g : Graph T V) (overrides : Dict Name V) (inTask : List Name) (iv : InputVars)
    (n : Node T V) : InputVars :=
  if overrides.has n.name then iv
  else n.dependencies.foldl (inputVarsDep g overrides inTask n)
    (if n.userDefined then { iv with required := setAdd iv.required n.name } else iv)

/-- `get_input_vars`, grouping.py:92-119. -/
def getInputVars (g : Graph T V) (t : TaskSpec T V) : InputVars :=
  t.nodes.foldl (inputVarsNode g t.overrides (t.nodes.map (·.name))) ⟨[], []⟩

end Verif
