import Verif.Model.Node

/-!
Specification of execution: functional composition along the DAG.  Uses only the data of the graph
(parameter names, required/optional, functions), none of the executor's helpers.
-/
namespace Verif
variable {T V : Type}

/-- Shape of graphs that the library builds (proved for graph construction in `Verif.Props.Construction`):
every name is bound once, edges are exactly the parameter names, and both directions are recorded. -/
structure WellFormed (g : Graph T V) : Prop where
  keys_nodup : g.keys.Nodup
  name_eq : ∀ {k n}, g.get? k = some n → n.name = k
  deps_eq : ∀ {k n}, g.get? k = some n → n.dependencies = n.inputTypes.keys
  params_nodup : ∀ {k n}, g.get? k = some n → n.inputTypes.keys.Nodup
  deps_in : ∀ {k n d}, g.get? k = some n → d ∈ n.inputTypes.keys → ∃ dn, g.get? d = some dn
  consumers : ∀ {d dn}, g.get? d = some dn → ∀ m,
    m ∈ dn.dependedOnBy ↔ ∃ mn, g.get? m = some mn ∧ d ∈ mn.inputTypes.keys
  external_no_params : ∀ {k n}, g.get? k = some n → n.kind = .external → n.inputTypes = []

/-- `rank` witnesses acyclicity: every parameter has a smaller rank than its consumer. -/
def Ranked (g : Graph T V) (rank : Name → Nat) : Prop :=
  ∀ k n, g.get? k = some n → ∀ d ∈ n.inputTypes.keys, rank d < rank k

/-- The graph has a topological numbering. -/
def Acyclic (g : Graph T V) : Prop := ∃ rank, Ranked g rank

/-- An input node for which no value is given: neither as an input nor as an override. -/
def Absent (g : Graph T V) (inputs overrides : Dict Name V) (k : Name) : Prop :=
  ∃ n, g.get? k = some n ∧ n.kind = .external ∧ inputs.get? k = none ∧ overrides.get? k = none

/-- Keyword arguments for a parameter list under a partial valuation: the parameters that have a value,
in order of the signature. -/
def argsFor (params : Dict Name (T × DepType)) (val : Name → Option V) : Dict Name V :=
  params.filterMap (fun p => (val p.1).map (fun v => (p.1, v)))

/-- `Den g inputs overrides k v`: node `k` has value `v` by functional composition. -/
inductive Den (g : Graph T V) (inputs overrides : Dict Name V) : Name → V → Prop
  | override {k n v} : g.get? k = some n → overrides.get? k = some v → Den g inputs overrides k v
  | input {k n v} : g.get? k = some n → overrides.get? k = none → n.kind = .external →
      inputs.get? k = some v → Den g inputs overrides k v
  | call {k n v} (val : Name → Option V) :
      g.get? k = some n → overrides.get? k = none → n.kind ≠ .external →
      (∀ d w, d ∈ n.inputTypes.keys → val d = some w → Den g inputs overrides d w) →
      (∀ d t, (d, t) ∈ n.inputTypes → val d = none → t.2 = .optional ∧ Absent g inputs overrides d) →
      n.fn (argsFor n.inputTypes val) = .ok v → Den g inputs overrides k v

/-- `kw` are the right keyword arguments for node `n`: every parameter that has a value gets it, the others
are optional inputs that were not supplied. -/
def RightArgs (g : Graph T V) (inputs overrides : Dict Name V) (n : Node T V) (kw : Dict Name V) : Prop :=
  ∃ val : Name → Option V,
    (∀ d w, d ∈ n.inputTypes.keys → val d = some w → Den g inputs overrides d w) ∧
    (∀ d t, (d, t) ∈ n.inputTypes → val d = none → t.2 = .optional ∧ Absent g inputs overrides d) ∧
    kw = argsFor n.inputTypes val

/-- `Needed g overrides req k`: `k` is requested or is a parameter of a needed node that is not overridden. -/
inductive Needed (g : Graph T V) (overrides : Dict Name V) (req : List Name) : Name → Prop
  | req {k} : k ∈ req → Needed g overrides req k
  | param {m mn d} : Needed g overrides req m → overrides.get? m = none → g.get? m = some mn →
      d ∈ mn.inputTypes.keys → Needed g overrides req d

/-- Traversing `a` requires traversing `b`: `b` is a parameter of `a`, and `a` is not overridden. -/
def LiveEdge (g : Graph T V) (overrides : Dict Name V) (a b : Name) : Prop :=
  overrides.get? a = none ∧ ∃ n, g.get? a = some n ∧ b ∈ n.inputTypes.keys

/-- `LivePath g overrides a b`: `b` is reached from `a` by one or more such steps. -/
inductive LivePath (g : Graph T V) (overrides : Dict Name V) : Name → Name → Prop
  | edge {a b} : LiveEdge g overrides a b → LivePath g overrides a b
  | step {a b c} : LiveEdge g overrides a b → LivePath g overrides b c → LivePath g overrides a c

/-- The request runs into a circular dependency that no override cuts. -/
def NeededCycle (g : Graph T V) (overrides : Dict Name V) (req : List Name) : Prop :=
  ∃ k, Needed g overrides req k ∧ LivePath g overrides k k

end Verif
