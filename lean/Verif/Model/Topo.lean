import Verif.Model.Node

/-!
Topological sorting and levels: hamilton/execution/graph_functions.py:16-81.
-/
namespace Verif
variable {T V : Type}

/-- Maps built by the first loop, graph_functions.py:33-45: `dependency_map` and `depended_on_by_map`. -/
structure TopoMaps (T V : Type) where
  deps : Dict Name (List Name)
  cons : Dict Name (List (Node T V))

/-- Inner loop body, graph_functions.py:36-45, for parameter `dep` of `n`; `names` are the keys of `node_name_map`. -/
def topoAddDep (names : List Name) (n : Node T V) (m : TopoMaps T V) (dep : Name) : TopoMaps T V :=
  if names.contains dep then
    { deps := m.deps.set n.name ((m.deps.get? n.name).getD [] ++ [dep]),
      cons := m.cons.set dep ((m.cons.get? dep).getD [] ++ [n]) }
  else m

/-- Outer loop body, graph_functions.py:34-45. -/
def topoAddNode (names : List Name) (m : TopoMaps T V) (n : Node T V) : TopoMaps T V :=
  n.inputTypes.keys.foldl (topoAddDep names n) { m with deps := m.deps.set n.name [] }

/-- graph_functions.py:31-45. -/
def topoMaps (nodes : List (Node T V)) : TopoMaps T V :=
  nodes.foldl (topoAddNode (nodes.map (·.name))) ⟨[], []⟩

/-- Body of the inner loop of Kahn's algorithm, graph_functions.py:57-60. State: in-degrees and queue. -/
def topoRelax (s : Dict Name Int × List (Node T V)) (m : Node T V) : Dict Name Int × List (Node T V) :=
  match s.1.get? m.name with
  | none => s
  | some k => (s.1.set m.name (k - 1), if k - 1 = 0 then s.2 ++ [m] else s.2)

/-- The `while` loop, graph_functions.py:54-60, with fuel; `none` is running out of fuel. -/
def topoLoop (cons : Dict Name (List (Node T V))) :
    Nat → Dict Name Int → List (Node T V) → List (Node T V) → Option (List (Node T V))
  | _, _, [], sorted => some sorted
  | 0, _, _ :: _, _ => none
  | fuel + 1, deg, n :: queue, sorted =>
    let s := ((cons.get? n.name).getD []).foldl topoRelax (deg, queue)
    topoLoop cons fuel s.1 s.2 (sorted ++ [n])

/-- `topologically_sort_nodes`, graph_functions.py:16-62. -/
def topologicallySortNodes (nodes : List (Node T V)) : Option (List (Node T V)) :=
  let maps := topoMaps nodes
  let deg : Dict Name Int := nodes.foldl (fun d n => d.set n.name (((maps.deps.get? n.name).getD []).length : Int)) []
  let sources := nodes.filter (fun n => deg.get? n.name == some 0)
  topoLoop maps.cons nodes.length deg sources []

/-- `max` of a nonempty list, Python raises on an empty one (not reachable, graph_functions.py:77-80). -/
def maxOf (l : List Nat) : Nat := l.foldl max 0

/-- Body of the loop of `get_node_levels`, graph_functions.py:75-80; `none` is the KeyError of line 80. -/
def levelStep (names : List Name) (levels : Dict Name Nat) (n : Node T V) : Option (Dict Name Nat) :=
  let inSet := n.dependencies.filter (fun d => names.contains d)
  if inSet = [] then some (levels.set n.name 0)
  else (inSet.mapM (fun d => levels.get? d)).map (fun ls => levels.set n.name (maxOf ls + 1))

/-- `get_node_levels`, graph_functions.py:65-81. -/
def getNodeLevels (nodes : List (Node T V)) : Option (Dict Name Nat) :=
  nodes.foldlM (levelStep (nodes.map (·.name))) []

end Verif
