import Verif.Model.Grouping
import Verif.Spec.Reach

/-! Vocabulary for statements about groupings of nodes into tasks. -/
namespace Verif
variable {T V : Type}

/-- The groups partition the nodes: distinct group names, and every node is in exactly one group, once. -/
structure Partition (nodes : List (Node T V)) (groups : List (NodeGroup T V)) : Prop where
  ids_nodup : (groups.map (·.baseId)).Nodup
  once : (groups.flatMap (fun gr => gr.nodes.map (·.name))).Nodup
  covers : ∀ n, (∃ gr ∈ groups, n ∈ gr.nodes) ↔ n ∈ nodes

/-- Groupings of nodes that are neither expanders nor collectors. -/
structure PlainGroups (nodes : List (Node T V)) (groups : List (NodeGroup T V)) : Prop
    extends Partition nodes groups where
  plain : ∀ gr ∈ groups, gr.spawning = none ∧ gr.purpose ≠ .expand ∧ gr.purpose ≠ .gather
  /-- the grouping respects dependencies: it does not make a cycle of groups -/
  order : ∃ rank : Name → Nat, ∀ gr ∈ groups, ∀ gr' ∈ groups, gr.baseId ≠ gr'.baseId → ∀ n ∈ gr.nodes, ∀ n' ∈ gr'.nodes,
    n'.name ∈ n.dependencies → rank gr'.baseId < rank gr.baseId

/-- `e` is a `Parallelizable` node. -/
def Expander (g : Graph T V) (e : Name) : Prop := ∃ n, g.get? e = some n ∧ n.kind = .expand

/-- A step from a node that is not an expander to one of its parameters. -/
def InsideEdge (g : Graph T V) (a b : Name) : Prop := ¬ Expander g a ∧ DependsOn g a b

/-- `e` is the start of the block that ends in `c`: an expander from which `c` is reached without passing another one. -/
def Feeds (g : Graph T V) (e c : Name) : Prop :=
  Expander g e ∧ ∃ d, DependsOn g c d ∧ Reaches (InsideEdge g) d e

/-- `x` lies between the start of the block and its end `c`. -/
def InBlock (g : Graph T V) (c x : Name) : Prop :=
  ¬ Expander g x ∧ (∃ d, DependsOn g c d ∧ Reaches (InsideEdge g) d x) ∧ ∃ e, Expander g e ∧ Reaches (InsideEdge g) x e

/-- Separate blocks: every collector has exactly one expander and every expander at most one collector; whole blocks
are to be executed. -/
structure BlockShape (g : Graph T V) (nodes : List (Node T V)) : Prop where
  in_graph : ∀ n ∈ nodes, g.get? n.name = some n
  names_nodup : (nodes.map (·.name)).Nodup
  start : ∀ c ∈ nodes, c.kind = .collect → ∃ e, Feeds g e c.name
  one_start : ∀ c ∈ nodes, c.kind = .collect → ∀ e e', Feeds g e c.name → Feeds g e' c.name → e = e'
  one_end : ∀ c ∈ nodes, c.kind = .collect → ∀ c' ∈ nodes, c'.kind = .collect → ∀ e, Feeds g e c.name → Feeds g e c'.name →
    c.name = c'.name
  whole : ∀ c ∈ nodes, c.kind = .collect → ∀ x, Feeds g x c.name ∨ InBlock g c.name x → ∃ n ∈ nodes, n.name = x

/-- Moreover nothing outside a block uses its inside, only the block uses the elements of the expander, and nothing of a
block is overridden. -/
structure SealedBlocks (g : Graph T V) (nodes : List (Node T V)) (overrides : Dict Name V) : Prop
    extends BlockShape g nodes where
  inside_use : ∀ c ∈ nodes, c.kind = .collect → ∀ x, InBlock g c.name x → ∀ m ∈ nodes, DependsOn g m.name x →
    InBlock g c.name m.name ∨ m.name = c.name
  start_use : ∀ c ∈ nodes, c.kind = .collect → ∀ e, Feeds g e c.name → ∀ m ∈ nodes, DependsOn g m.name e →
    InBlock g c.name m.name
  untouched : ∀ c ∈ nodes, c.kind = .collect → ∀ x, Feeds g x c.name ∨ InBlock g c.name x ∨ x = c.name →
    overrides.get? x = none

end Verif
