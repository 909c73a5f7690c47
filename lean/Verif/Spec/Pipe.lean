import Verif.Model.Pipe
import Verif.Spec.Decor

/-!
What a chain of steps means: `f₃(f₂(f₁(x, …), …), …)`, every function called with the arguments written in its `step`.
-/
namespace Verif
variable {T V : Type}

/-- The arguments written in a step after the chained one: positional ones belong to the second and following parameters. -/
def Applicable.written (a : Applicable T V) : Dict Name (SingleDep V) := a.fn.inputTypes.keys.tail.zip a.args ++ a.kwargs

/-- The function only sees which value each parameter has (true of all functions without `**kwargs`). -/
def ByKeyword (f : Dict Name V → Except UserErr V) : Prop :=
  ∀ kw kw', kw.keys.Nodup → kw'.keys.Nodup → (∀ k, kw.get? k = kw'.get? k) → f kw = f kw'

/-- `kw` are the arguments of the call `fn(x, …)` as it is written in the step: the chained value goes to the first parameter,
a parameter with a written literal gets it, one with a written `source` gets the value of that node, and nothing is passed for
the others, so that their defaults apply. -/
structure StepArgs (g : Graph T V) (inputs overrides : Dict Name V) (a : Applicable T V) (x : V) (kw : Dict Name V) : Prop where
  nodup : kw.keys.Nodup
  first : ∀ p, a.fn.inputTypes.keys.head? = some p → kw.get? p = some x
  literal : ∀ p v, a.fn.inputTypes.keys.head? ≠ some p → a.written.get? p = some (.value v) → kw.get? p = some v
  source : ∀ p s, a.fn.inputTypes.keys.head? ≠ some p → a.written.get? p = some (.source s) →
    ∃ w, Den g inputs overrides s w ∧ kw.get? p = some w
  other : ∀ p, a.fn.inputTypes.keys.head? ≠ some p → a.written.get? p = none → kw.get? p = none

/-- The value of a chain of steps on `x`. -/
def ChainValue (g : Graph T V) (inputs overrides : Dict Name V) : List (Applicable T V) → V → V → Prop
  | [], x, v => x = v
  | a :: as, x, v => ∃ y, (∃ kw, StepArgs g inputs overrides a x kw ∧ a.fn.fn kw = .ok y) ∧ ChainValue g inputs overrides as y v

/-- The steps whose conditions hold. -/
def activeSteps (config : Dict Name V) (steps : List (Applicable T V)) : List (Applicable T V) :=
  steps.filter (fun a => a.resolvers.all (fun r => r config))

/-- The nodes a step refers to with `source`. -/
def Applicable.sources (a : Applicable T V) : List Name :=
  a.written.filterMap (fun p => match p.2 with | .source s => some s | .value _ => none)

/-- Conditions on a step that is chained to the node `cur`: the function has different parameters and does not care about the
order of keyword arguments; no two of its arguments come from the same node; none of them comes from a node called like a
parameter that is given a literal; the nodes have values; and the parameters nothing is written for are names without a value
in the graph. -/
structure StepClear (g : Graph T V) (inputs overrides : Dict Name V) (cur : Name) (a : Applicable T V) : Prop where
  kind : a.fn.kind ≠ .external
  params_nodup : a.fn.inputTypes.keys.Nodup
  kwargs_nodup : a.kwargs.keys.Nodup
  by_keyword : ByKeyword a.fn.fn
  sources_nodup : (cur :: a.sources).Nodup
  literal_apart : ∀ s ∈ cur :: a.sources, ∀ v, a.written.get? s ≠ some (.value v)
  valued : ∀ s ∈ a.sources, ¬ Absent g inputs overrides s
  unwritten : ∀ u ∈ a.fn.inputTypes.keys, a.fn.inputTypes.keys.head? ≠ some u → a.written.get? u = none →
    Absent g inputs overrides u

/-- The same for a chain starting at `cur` whose nodes are called `names`. -/
def ChainClear (g : Graph T V) (inputs overrides : Dict Name V) : Name → List (Applicable T V) → List Name → Prop
  | cur, a :: as, m :: ms => StepClear g inputs overrides cur a ∧ ChainClear g inputs overrides m as ms
  | _, _, _ => True

/-! ### The documented names -/

/-- The documented name of a step: `named(...)`, or `with_` and the name of the function (no second underscore for a private
function), numbered if the function occurs `k` times before. -/
def stepBaseName (a : Applicable T V) (k : Nat) : Name :=
  match a.name with
  | some n => n
  | none =>
    let base := if a.fn.name.startsWith "_" then "with" ++ a.fn.name else "with_" ++ a.fn.name
    if k = 0 then base else base ++ "_" ++ toString k

/-- The documented namespace: the one of the decorator if it has one, otherwise that of the step, otherwise the decorated
function. -/
def stepPrefix (ns stepNs : NsArg) (fnName : Name) : Name :=
  match ns, stepNs with
  | .none, _ => ""
  | .named s, _ => s ++ "."
  | .ellipsis, .none => ""
  | .ellipsis, .named s => s ++ "."
  | .ellipsis, .ellipsis => fnName ++ "."

/-- The names of the nodes of a chain; `before` are the functions of the earlier steps. -/
def chainNames (ns : NsArg) (fnName : Name) (before : List Name) : List (Applicable T V) → List Name
  | [] => []
  | a :: as => (stepPrefix ns a.ns fnName ++ stepBaseName a (before.count a.fn.name)) ::
      chainNames ns fnName (before ++ [a.fn.name]) as

/-- The value of a function one of whose parameters gets a value with the property `R`: `n(…, p = y, …)` for such a `y`. -/
def InjectedValue (g : Graph T V) (inputs overrides : Dict Name V) (n : Node T V) (p : Name) (R : V → Prop) (v : V) : Prop :=
  ∃ val : Name → Option V,
    (∃ y, R y ∧ val p = some y) ∧
    (∀ d w, d ∈ n.inputTypes.keys → d ≠ p → val d = some w → Den g inputs overrides d w) ∧
    (∀ d t, (d, t) ∈ n.inputTypes → d ≠ p → val d = none → t.2 = .optional ∧ Absent g inputs overrides d) ∧
    n.fn (argsFor n.inputTypes val) = .ok v

/-- The value of a function one of whose parameters is piped: `n(…, p = chain(p), …)`. -/
def PipedValue (g : Graph T V) (inputs overrides : Dict Name V) (n : Node T V) (p : Name) (steps : List (Applicable T V))
    (v : V) : Prop :=
  ∃ val : Name → Option V,
    (∃ x y, Den g inputs overrides p x ∧ ChainValue g inputs overrides steps x y ∧ val p = some y) ∧
    (∀ d w, d ∈ n.inputTypes.keys → d ≠ p → val d = some w → Den g inputs overrides d w) ∧
    (∀ d t, (d, t) ∈ n.inputTypes → d ≠ p → val d = none → t.2 = .optional ∧ Absent g inputs overrides d) ∧
    n.fn (argsFor n.inputTypes val) = .ok v

/-- The nodes of a function that a `@pipe_output` applies to: those named in its `on_output`, or without it those that no other
node of the function depends on. -/
def OutputChosen (target : Option (List Name)) (nodes : List (Node T V)) (name : Name) : Prop :=
  match target with
  | none => ∀ m ∈ nodes, name ∉ m.inputTypes.keys
  | some ts => name ∈ ts

/-- The steps that apply to a node: their conditions hold and they have no `on_output`, or one naming the node. -/
def outputSteps (config : Dict Name V) (steps : List (Applicable T V)) (name : Name) : List (Applicable T V) :=
  activeSteps config (steps.filter (fun a => match a.target with | none => true | some ts => decide (name ∈ ts)))

/-- The namespace of the nodes of a `@pipe_output`: `...` stands for the name of the node. -/
def outputNs (ns : NsArg) (name : Name) : NsArg :=
  match ns with
  | .ellipsis => .named name
  | other => other

end Verif
