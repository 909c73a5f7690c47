import Verif.Spec.Plan

/-! Vocabulary for statements about where results are stored. -/
namespace Verif
variable {T V : Type}

/-- No `:` in the name. Node names are Python identifiers joined by `.`. -/
def ColonFree (s : Name) : Prop := ':' ∉ s.toList

/-- Some task of the plan is repeated. -/
def HasRepeated (specs : List (TaskSpec T V)) : Prop := ∃ m ∈ specs, ∃ e, m.MemberOf e

/-- Plans in which results do not get mixed up: a node belongs to one task, a task only reports its own nodes, collectors
belong to an expander, and, if tasks are repeated, names contain no `:`. -/
structure KeysOk (specs : List (TaskSpec T V)) : Prop where
  node_disjoint : ∀ s ∈ specs, ∀ s' ∈ specs, ∀ n ∈ s.nodes, ∀ n' ∈ s'.nodes, n.name = n'.name → s.baseId = s'.baseId
  outputs_in : ∀ s ∈ specs, ∀ k ∈ s.outputs, ∃ n ∈ s.nodes, n.name = k
  overrides_in : ∀ s ∈ specs, ∀ k v, s.overrides.get? k = some v → ∃ n ∈ s.nodes, n.name = k
  overrides_nodup : ∀ s ∈ specs, s.overrides.keys.Nodup
  gather_spawned : ∀ s ∈ specs, s.purpose = .gather → s.spawning ≠ none
  ids_plain : HasRepeated specs → ∀ s ∈ specs, ColonFree s.baseId
  names_plain : HasRepeated specs → ∀ s ∈ specs, ∀ n ∈ s.nodes, ColonFree n.name
  deps_plain : HasRepeated specs → ∀ s ∈ specs, ∀ n ∈ s.nodes, ∀ d ∈ n.dependencies, ColonFree d

/-- The key of a result of task `t` in the result cache. -/
def Task.key (t : Task T V) (k : Name) : Name := formatKey t.groupId t.spawningTaskId k

/-- What is stored for result `v` of node `k` of task `t`: the result of an expander is stored as a list. -/
def TaskSpec.storedValue (ops : TaskOps T V) (t : TaskSpec T V) (k : Name) (v : V) : Option V :=
  if t.purpose = .expand ∧ (expanderNode t.nodes).map (·.name) = some k then (ops.toList v).map ops.ofList else some v

/-- In this trace some completed task produced `v` under `key`. -/
def Produced (ops : TaskOps T V) (trace : List (Event T V)) (realized : Task T V → Prop) (key : Name) (v : V) : Prop :=
  ∃ id r t k w, .done id r ∈ trace ∧ realized t ∧ t.id = id ∧ r.get? k = some w ∧ key = t.key k ∧
    t.storedValue ops k w = some v

/-- The values gathered for `arg` by the collector `s` of expander `e`, when `arg` is a node of the repeated task `m` it
depends on: for every element, in order, the result of its copy of `m`. -/
def Gathered (specs : List (TaskSpec T V)) (trace : List (Event T V)) (s : TaskSpec T V) (e arg : Name)
    (items vs : List V) : Prop :=
  ∀ m ∈ specs, m.MemberOf e → m.baseId ∈ s.baseDeps → (∃ n ∈ m.nodes, n.name = arg) →
    vs.length = items.length ∧ ∀ i < items.length, ∃ r v, .done (instanceId e i m.baseId) r ∈ trace ∧
      r.get? arg = some v ∧ vs[i]? = some v

end Verif
