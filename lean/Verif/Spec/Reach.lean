import Verif.Model.Query

/-!
Specification of graph queries: plain reachability.
-/
namespace Verif

/-- Reflexive transitive closure. -/
inductive Reaches {α : Type} (E : α → α → Prop) : α → α → Prop
  | refl (a : α) : Reaches E a a
  | step {a b c : α} : Reaches E a b → E b c → Reaches E a c

theorem Reaches.trans {α : Type} {E : α → α → Prop} {a b c : α} (h : Reaches E a b) (h' : Reaches E b c) :
    Reaches E a c := by
  induction h' with
  | refl => exact h
  | step _ e ih => exact .step ih e

theorem Reaches.head {α : Type} {E : α → α → Prop} {a b c : α} (e : E a b) (h : Reaches E b c) :
    Reaches E a c := (Reaches.step (.refl a) e).trans h

theorem Reaches.mono {α : Type} {E E' : α → α → Prop} (hE : ∀ x y, E x y → E' x y) {a b : α}
    (h : Reaches E a b) : Reaches E' a b := by
  induction h with
  | refl => exact .refl _
  | step _ e ih => exact .step ih (hE _ _ e)

theorem Reaches.flip {α : Type} {E : α → α → Prop} {a b : α} (h : Reaches E a b) :
    Reaches (fun x y => E y x) b a := by
  induction h with
  | refl => exact .refl _
  | step _ e ih => exact Reaches.head e ih

theorem Reaches.closed {α : Type} {E : α → α → Prop} {P : α → Prop} (hP : ∀ x y, P x → E x y → P y)
    {a b : α} (h : Reaches E a b) (ha : P a) : P b := by
  induction h with
  | refl => exact ha
  | step _ e ih => exact hP _ _ ih e

variable {T V : Type}

/-- `n` has a parameter named `d`. -/
def DependsOn (g : Graph T V) (n d : Name) : Prop := ∃ nn, g.get? n = some nn ∧ d ∈ nn.inputTypes.keys

/-- The edge from `n` to its parameter `d` matters for a run: `n` is not overridden, and `d` is not an optional
input without a value. -/
def RunEdge (g : Graph T V) (given overrides : Dict Name V) (n d : Name) : Prop :=
  overrides.get? n = none ∧ ∃ nn t, g.get? n = some nn ∧ nn.inputTypes.get? d = some t ∧
    ¬ (t.2 = .optional ∧ ∃ dn, g.get? d = some dn ∧ dn.kind = .external ∧ given.get? d = none)

end Verif
