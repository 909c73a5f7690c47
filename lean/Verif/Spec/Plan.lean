import Verif.Model.Sched

/-!
Vocabulary for statements about task plans and runs.  A plan is a list of task specifications; every run of it is
observed as a trace of events.
-/
namespace Verif
variable {T V : Type}

/-- The task is repeated for every element produced by the expander `e`. -/
def TaskSpec.MemberOf (t : TaskSpec T V) (e : Name) : Prop :=
  t.spawning = some e ∧ t.purpose ≠ .expand ∧ t.purpose ≠ .gather

/-- The task collects the results of the tasks repeated for `e`. -/
def TaskSpec.CollectorOf (t : TaskSpec T V) (e : Name) : Prop := t.spawning = some e ∧ t.purpose = .gather

/-- Name of the copy of `m` for element number `i` of expander `e`. -/
def instanceId (e : Name) (i : Nat) (m : Name) : Name := e ++ "." ++ (toString i ++ "." ++ m)

/-- Plans that the scheduler handles: names are distinct, also those of the copies; dependencies exist; expanders are not
nested; a repeated task is used only by the collector of its expander; repeated tasks and collectors depend on
something. -/
structure PlanOk (specs : List (TaskSpec T V)) : Prop where
  ids_nodup : (specs.map (·.baseId)).Nodup
  deps_in : ∀ t ∈ specs, ∀ d ∈ t.baseDeps, ∃ s ∈ specs, s.baseId = d
  expand_static : ∀ t ∈ specs, t.purpose = .expand → t.spawning = none
  spawned : ∀ t ∈ specs, ∀ e, t.spawning = some e → t.baseDeps ≠ [] ∧ ∃ s ∈ specs, s.baseId = e ∧ s.purpose = .expand
  member_use : ∀ t ∈ specs, ∀ m ∈ specs, ∀ e, m.MemberOf e → m.baseId ∈ t.baseDeps → t.CollectorOf e
  inst_inj : ∀ m ∈ specs, ∀ m' ∈ specs, ∀ e e' i i', m.MemberOf e → m'.MemberOf e' →
    instanceId e i m.baseId = instanceId e' i' m'.baseId → e = e' ∧ i = i' ∧ m.baseId = m'.baseId
  inst_fresh : ∀ m ∈ specs, ∀ s ∈ specs, ∀ e i, m.MemberOf e → instanceId e i m.baseId ≠ s.baseId

/-- Plans that run to the end: there is something to do, dependencies are not circular, and a task that waits for other
tasks waits for at least one that is not an expander (the completion of an expander only starts its own block). -/
structure PlanLive (specs : List (TaskSpec T V)) : Prop extends PlanOk specs where
  nonempty : specs ≠ []
  rank : ∃ rank : Name → Nat, (∀ t ∈ specs, ∀ d ∈ t.baseDeps, rank d < rank t.baseId) ∧
    ∀ t ∈ specs, ∀ e, t.spawning = some e → rank e < rank t.baseId
  realizable : ∀ t ∈ specs, t.spawning = none → t.baseDeps ≠ [] →
    ∃ s ∈ specs, s.baseId ∈ t.baseDeps ∧ s.purpose ≠ .expand

/-- In this trace the expander task `e` has been reported successful, yielding the elements `items` under node name `x`. -/
def Yielded (ops : TaskOps T V) (specs : List (TaskSpec T V)) (trace : List (Event T V)) (e x : Name)
    (items : List V) : Prop :=
  ∃ s ∈ specs, s.baseId = e ∧ s.purpose = .expand ∧ (∃ n, expanderNode s.nodes = some n ∧ n.name = x) ∧
    ∃ r v, .done e r ∈ trace ∧ r.get? x = some v ∧ ops.toList v = some items

/-- `id` was reported successful in this trace. -/
def Done (trace : List (Event T V)) (id : Name) : Prop := ∃ r, .done id r ∈ trace

/-- The task ids handed to executors, in order. -/
def submittedIds (trace : List (Event T V)) : List Name :=
  trace.filterMap (fun e => match e with | .submit t => some t.id | .done _ _ => none)

/-- The task ids reported successful, in order. -/
def doneIds (trace : List (Event T V)) : List Name :=
  trace.filterMap (fun e => match e with | .submit _ => none | .done id _ => some id)

end Verif
