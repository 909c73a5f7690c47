import Verif.Model.Graceful
import Verif.Spec.Denotation

/-! What a run with `GracefulErrorAdapter` is meant to compute. -/
namespace Verif
variable {T V : Type}

/-- The node may be given sentinels. -/
def Graceful.Allowed (c : Graceful V) (k : Name) : Prop := c.accepts k = true ∧ c.allowInjection = true

/-- `GDen c g inputs overrides k v`: node `k` has value `v`. A function whose arguments contain the sentinel is skipped
(unless it accepts sentinels) and one that raises the caught error yields the sentinel. -/
inductive GDen (c : Graceful V) (g : Graph T V) (inputs overrides : Dict Name V) : Name → V → Prop
  | override {k n v} : g.get? k = some n → overrides.get? k = some v → GDen c g inputs overrides k v
  | input {k n v} : g.get? k = some n → overrides.get? k = none → n.kind = .external →
      inputs.get? k = some v → GDen c g inputs overrides k v
  | skipped {k n d w} (val : Name → Option V) :
      g.get? k = some n → overrides.get? k = none → n.kind ≠ .external →
      (∀ d w, d ∈ n.inputTypes.keys → val d = some w → GDen c g inputs overrides d w) →
      (∀ d t, (d, t) ∈ n.inputTypes → val d = none → t.2 = .optional ∧ Absent g inputs overrides d) →
      ¬ c.Allowed k → d ∈ n.inputTypes.keys → val d = some w → c.same w = true →
      GDen c g inputs overrides k c.sentinel
  | value {k n v} (val : Name → Option V) :
      g.get? k = some n → overrides.get? k = none → n.kind ≠ .external →
      (∀ d w, d ∈ n.inputTypes.keys → val d = some w → GDen c g inputs overrides d w) →
      (∀ d t, (d, t) ∈ n.inputTypes → val d = none → t.2 = .optional ∧ Absent g inputs overrides d) →
      (c.Allowed k ∨ ∀ d w, d ∈ n.inputTypes.keys → val d = some w → c.same w = false) →
      n.fn (argsFor n.inputTypes val) = .ok v → GDen c g inputs overrides k v
  | caught {k n e} (val : Name → Option V) :
      g.get? k = some n → overrides.get? k = none → n.kind ≠ .external →
      (∀ d w, d ∈ n.inputTypes.keys → val d = some w → GDen c g inputs overrides d w) →
      (∀ d t, (d, t) ∈ n.inputTypes → val d = none → t.2 = .optional ∧ Absent g inputs overrides d) →
      (c.Allowed k ∨ ∀ d w, d ∈ n.inputTypes.keys → val d = some w → c.same w = false) →
      n.fn (argsFor n.inputTypes val) = .error e → c.catches e = true → GDen c g inputs overrides k c.sentinel

end Verif
