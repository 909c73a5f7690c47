import Verif.Spec.Pipe

/-!
What `@mutate(A, B, …) def m(…)` asks for: the steps by which the output of a function is changed.
-/
namespace Verif
variable {T V : Type}

/-- The steps that `@mutate(targets, **kwargs) def mutator` asks for on the function `k`, in the order in which the function is
mentioned: the mutator with the arguments of `apply_to` if there are any, otherwise those of the decorator. -/
def mutationSteps (kwargs : Dict Name (SingleDep V)) (mutator : Node T V) (k : Name) :
    List (MutateTarget V) → List (Applicable T V)
  | [] => []
  | t :: ts =>
    if t.fnName = k then
      ⟨mutator, [], match t.kwargs with | [] => kwargs | own => own, t.resolvers, t.name, t.ns, t.target⟩ ::
        mutationSteps kwargs mutator k ts
    else mutationSteps kwargs mutator k ts

/-- The same for a sequence of decorated mutators, in order of definition. -/
def allMutationSteps (k : Name) : List (Dict Name (SingleDep V) × List (MutateTarget V) × Node T V) → List (Applicable T V)
  | [] => []
  | m :: ms => mutationSteps m.1 m.2.2 k m.2.1 ++ allMutationSteps k ms

end Verif
