import Verif.Model.Does

/-! What `@does` is meant to do. -/
namespace Verif
variable {V : Type}

/-- The value of a parameter of the decorated function: what was given, or else its default. -/
def paramValue (params : List (PyParam V)) (kw : Dict Name V) (p : Name) : Option V :=
  match kw.get? p with
  | some v => some v
  | none => (params.find? (fun q => q.name == p)).bind (·.dflt)

/-- What the replacing function gets as argument `k`: the parameter mapped to `k`; otherwise the parameter called `k`, unless
that one is mapped to something else. -/
def doesArg (mapping : Dict Name Name) (val : Name → Option V) (k : Name) : Option V :=
  match mapping.get? k with
  | some orig => val orig
  | none => if k ∈ mapping.map (·.2) then none else val k

/-- The mapping renames parameters: no parameter is used twice, and a parameter is overwritten exactly if it is itself renamed
to some parameter. (In particular all mappings where no new name is the name of a mapped parameter, and all
permutations.) -/
structure Renaming (mapping : Dict Name Name) : Prop where
  once : (mapping.map (·.2)).Nodup
  closed : ∀ p ∈ mapping, (p.1 ∈ mapping.map (·.2) ↔ p.2 ∈ mapping.map (·.1))

end Verif
