import Verif.Spec.Keys

/-! Vocabulary for statements about runs of a task plan. -/
namespace Verif
variable {T V : Type}

/-- What was observed until the run returned or raised. -/
def traceOf : Out (Loop T V) TaskErr → List (Event T V)
  | .ok l => l.trace
  | .err _ l => l.trace

/-- The first `n` decisions of an infinite schedule. -/
def prefixOf (σ : Nat → Choice) (n : Nat) : List Choice := (List.range n).map σ

/-- The run is over: an exception was raised or the graph is in a terminal state. -/
def Ended : Out (Loop T V) TaskErr → Prop
  | .ok l => (graphState l.sched).isTerminal = true
  | .err _ _ => True

/-- Executors complete what they are given and do not stay full: every task is observed as finished again and again,
and room for a new task again and again. -/
def FairSchedule (σ : Nat → Choice) : Prop :=
  (∀ n id, ∃ m, n ≤ m ∧ (σ m).obs id = .finished) ∧ ∀ n, ∃ m, n ≤ m ∧ (σ m).canSubmit = true

/-- The tasks of a run, by id: every task that is not repeated, and for every element yielded by an expander a copy of every
task of its block. -/
def Expected (ops : TaskOps T V) (specs : List (TaskSpec T V)) (tr : List (Event T V)) (id : Name) : Prop :=
  (∃ s ∈ specs, (s.spawning = none ∨ s.purpose = .gather) ∧ id = s.baseId) ∨
  ∃ m ∈ specs, ∃ e x items i, m.MemberOf e ∧ Yielded ops specs tr e x items ∧ i < items.length ∧ id = instanceId e i m.baseId

/-- Before (in `pre`), everything that task `t`, made from specification `s`, depends on was reported successful.  A
repeated task also needs its expander; a collector needs, for a repeated task, all of its copies.  (A task of a block that
depends on nothing is run under its own name as well.) -/
def ReadyToRun (ops : TaskOps T V) (specs : List (TaskSpec T V)) (pre : List (Event T V)) (s : TaskSpec T V) (id : Name) :
    Prop :=
  ((s.spawning = none ∨ s.purpose = .expand ∨ s.baseDeps = []) ∧ id = s.baseId ∧ ∀ d ∈ s.baseDeps, Done pre d) ∨
  (∃ e x items i, s.MemberOf e ∧ Yielded ops specs pre e x items ∧ i < items.length ∧ id = instanceId e i s.baseId ∧
    ∀ d ∈ s.baseDeps, Done pre d) ∨
  (∃ e x items, s.CollectorOf e ∧ Yielded ops specs pre e x items ∧ id = s.baseId ∧
    ∀ d ∈ s.baseDeps, ((∃ m ∈ specs, m.MemberOf e ∧ m.baseId = d) ∧ ∀ i < items.length, Done pre (instanceId e i d)) ∨
      Done pre d)

/-- The value `v` bound to `k` when a task made from `s` is submitted is legitimate: the element this copy was made for, an
override of a node of the task, the collected list, or something found in the result cache: given at the start or
reported by a completed task; and then it is what the dependencies report for `k`, if any does (copies of repeated tasks
are only seen by collectors). -/
def Legitimate (ops : TaskOps T V) (specs : List (TaskSpec T V)) (c0 : Dict Name V) (pre : List (Event T V))
    (s : TaskSpec T V) (id k : Name) (v : V) : Prop :=
  (∃ e items i, s.MemberOf e ∧ Yielded ops specs pre e k items ∧ items[i]? = some v ∧ id = instanceId e i s.baseId) ∨
  s.overrides.get? k = some v ∨
  (∃ e x items vs, s.CollectorOf e ∧ Yielded ops specs pre e x items ∧ v = ops.ofList vs ∧
    Gathered specs pre s e k items vs) ∨
  ((c0.get? k = some v ∨ ∃ p ∈ specs, (∀ e, ¬ p.MemberOf e) ∧ ∃ r w, .done p.baseId r ∈ pre ∧ r.get? k = some w ∧
      p.storedValue ops k w = some v) ∧
    ∀ p ∈ specs, p.baseId ∈ s.baseDeps → (∀ e, ¬ p.MemberOf e) → ∀ r w, .done p.baseId r ∈ pre → r.get? k = some w →
      p.storedValue ops k w = some v)

/-- Tasks submitted under one id have the same outcome (in particular if no id is submitted twice). -/
def SameWork (g : Graph T V) (tr : List (Event T V)) : Prop :=
  ∀ t t', .submit t ∈ tr → .submit t' ∈ tr → t.id = t'.id → executeTask g t = executeTask g t'

end Verif
