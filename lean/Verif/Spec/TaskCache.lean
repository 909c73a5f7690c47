import Verif.Model.TaskCache
import Verif.Spec.Caching

/-! Vocabulary for statements about caching in task-based execution. -/
namespace Verif.TaskCache
variable {V : Type}

/-- What is assumed of fingerprints, uuids and compression (as for C25), and of the fingerprint of a list of strings. -/
structure TaskEnv.Lawful (env : TaskEnv V) : Prop where
  base : env.toCacheEnv.Lawful
  list_inj : ∀ {l l'}, env.hashList l = env.hashList l' → l = l'
  list_comma : ∀ l, ',' ∉ (env.hashList l).toList
  list_plain : ∀ l, '<' ∉ (env.hashList l).toList

/-- The two argument lists agree, except that the items of the collected parameter may come in another order. -/
def SameUpToOrder (env : TaskEnv V) (col : Option Name) (kw kw' : Dict Name V) : Prop :=
  ∀ d, kw.get? d = kw'.get? d ∨
    (col = some d ∧ ∃ v v', kw.get? d = some v ∧ kw'.get? d = some v' ∧ (env.items v).Perm (env.items v'))

/-- Keyword arguments have no order, and functions that collect do not depend on the order of what they collect. `impl name
code` is the function that the code version `code` stands for in a node with (sanitised) name `name`, and `col name code` its
parameter annotated with `Collect`. -/
def OrderFree (env : TaskEnv V) (col : String → String → Option Name)
    (impl : String → String → Dict Name V → Except UserErr V) : Prop :=
  ∀ name code kw kw', SameUpToOrder env (col name code) kw kw' → impl name code kw = impl name code kw'

/-- The argument `d` of the step `st` comes from somewhere the adapter knows: it is given by the user, or part of the
configuration, or the result of a node that is a task of its own, of a collecting node, or of a node in the same task. -/
inductive Known (r : Run V) (st : Step V) (d : Name) : Src V → Prop
  | given {v} : r.given.get? d = some v → Known r st d (.value v)
  | config {v} : r.given.get? d = none → (∀ s ∈ r.steps, s.name ≠ d) → Known r st d (.value v)
  | own : Known r st d (.result d)
  | collecting {t e} : r.flow.kinds d = .collect e → Known r st d (.result t)
  | same : Known r st d (.result st.task)

/-- The runs the property speaks about. Code versions identify functions; nothing is ignored; user-given names are not
executed; a node is executed in several tasks only as part of blocks, once in each; arguments come from known places, unless
they are items of a parallelizable node or what a node collects. -/
structure Run.Valid (env : TaskEnv V) (col : String → String → Option Name)
    (impl : String → String → Dict Name V → Except UserErr V) (r : Run V) : Prop where
  fns : ∀ n kw, r.flow.fns n kw = impl (safeName env.alnum n) (r.flow.codes n) kw
  kinds : ∀ n d, r.flow.kinds n = .collect d ↔ col (safeName env.alnum n) (r.flow.codes n) = some d
  behaviors : ∀ n, r.flow.behavior n ≠ .ignore
  given_nodup : r.given.keys.Nodup
  args_nodup : ∀ st ∈ r.steps, (st.args.map (·.1)).Nodup
  names : ∀ st ∈ r.steps, ∀ p ∈ st.args, ',' ∉ p.1.toList
  notGiven : ∀ st ∈ r.steps, r.given.get? st.name = none
  apart : r.steps.Pairwise (fun a b => a.name = b.name →
    a.task ≠ b.task ∧ r.flow.kinds a.name = .plain ∧ a.task ≠ a.name ∧ b.task ≠ b.name)
  sources : ∀ st ∈ r.steps, ∀ p ∈ st.args,
    r.flow.kinds p.1 = .expand ∨ r.flow.kinds st.name = .collect p.1 ∨ Known r st p.1 p.2

/-- Histories of a cache: any number of runs, of different dataflows and code, completed or stopped by an exception, and
deletions from the stores, starting with empty stores. -/
inductive Reached (env : TaskEnv V) (col : String → String → Option Name)
    (impl : String → String → Dict Name V → Except UserErr V) : State V → Prop
  | empty {s} : s.store = [] → s.results = [] → s.issued = [] → Reached env col impl s
  | run {s r} : Reached env col impl s → Run.Valid env col impl r → Reached env col impl (cachedRun env r s).2
  | delete {s s'} : Reached env col impl s → (∀ k x, s'.store.get? k = some x → s.store.get? k = some x) →
      (∀ d v, s'.results.get? d = some v → s.results.get? d = some v) → s'.counter = s.counter → s'.issued = s.issued →
      Reached env col impl s'

/-- What happens to a cache later: further runs, of any dataflows and code, in which nothing is disabled; nothing is deleted. -/
inductive Later (env : TaskEnv V) (col : String → String → Option Name)
    (impl : String → String → Dict Name V → Except UserErr V) (s : State V) : State V → Prop
  | refl : Later env col impl s s
  | run {t r} : Later env col impl s t → Run.Valid env col impl r → (∀ n, r.flow.behavior n ≠ .disable) →
      Later env col impl s (cachedRun env r t).2

end Verif.TaskCache
