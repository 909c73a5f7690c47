import Verif.Spec.Denotation
import Verif.Spec.Groups

/-!
Sequential reading of graphs with `Parallelizable` and `Collect`: the collector is applied to the list of what the functions
before it return for the elements, one after the other.  Nothing of tasks, queues or schedules.
-/
namespace Verif
variable {T V : Type}

/-- What a call of node `n` that returned `v` counts for: the elements of a `Parallelizable` are listed. -/
def Listed (ops : TaskOps T V) (n : Node T V) (v w : V) : Prop :=
  if n.kind = .expand then ∃ items, ops.toList v = some items ∧ w = ops.ofList items else w = v

/-- `arg` is the one parameter of `n` that is a `Collect`. -/
def CollectParam (ops : TaskOps T V) (n : Node T V) (arg : Name) : Prop :=
  (∃ t, (arg, t) ∈ n.inputTypes ∧ ops.isCollect t.1 = true) ∧
  ∀ p ∈ n.inputTypes, ops.isCollect p.2.1 = true → p.1 = arg

/-- `ParDen ops g inputs overrides k v`: node `k` has value `v`.  As `Den`, and for a collector: take the elements of the
`Parallelizable` it belongs to; for every element compute the collected node with the `Parallelizable` replaced by the
element; pass the list of the results. -/
inductive ParDen (ops : TaskOps T V) (g : Graph T V) (inputs : Dict Name V) : Dict Name V → Name → V → Prop
  | override {ov k n v} : g.get? k = some n → ov.get? k = some v → ParDen ops g inputs ov k v
  | input {ov k n v} : g.get? k = some n → ov.get? k = none → n.kind = .external → inputs.get? k = some v →
      ParDen ops g inputs ov k v
  | call {ov k n v w} (val : Name → Option V) :
      g.get? k = some n → ov.get? k = none → n.kind ≠ .external → n.kind ≠ .collect →
      (∀ d w, d ∈ n.inputTypes.keys → val d = some w → ParDen ops g inputs ov d w) →
      (∀ d t, (d, t) ∈ n.inputTypes → val d = none → t.2 = .optional ∧ Absent g inputs ov d) →
      n.fn (argsFor n.inputTypes val) = .ok v → Listed ops n v w → ParDen ops g inputs ov k w
  | collect {ov k n v arg e l} {items vs : List V} (val : Name → Option V) :
      g.get? k = some n → ov.get? k = none → n.kind = .collect →
      CollectParam ops n arg → Feeds g e k →
      ParDen ops g inputs ov e l → ops.toList l = some items →
      vs.length = items.length →
      (∀ (i : Nat) item w, items[i]? = some item → vs[i]? = some w → ParDen ops g inputs (ov.set e item) arg w) →
      val arg = some (ops.ofList vs) →
      (∀ d w, d ∈ n.inputTypes.keys → d ≠ arg → val d = some w → ParDen ops g inputs ov d w) →
      (∀ d t, (d, t) ∈ n.inputTypes → val d = none → t.2 = .optional ∧ Absent g inputs ov d) →
      n.fn (argsFor n.inputTypes val) = .ok v → ParDen ops g inputs ov k v

end Verif
