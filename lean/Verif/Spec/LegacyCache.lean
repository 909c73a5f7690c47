import Verif.Model.LegacyCache
import Verif.Spec.Denotation

/-! What the deprecated caching adapters may rely on and should guarantee. -/
namespace Verif
variable {T V : Type}

/-- What a function computes is told by its source and the values of its arguments, when all of them are passed. -/
def SourceTells (g : Graph T V) (src : Node T V → String) (code : String → List V → Except UserErr V) : Prop :=
  ∀ k n, g.get? k = some n → n.kind ≠ .external → ∀ kw : Dict Name V, kw.keys = n.inputTypes.keys →
    n.fn kw = code (src n) (kw.map (·.2))

/-- No function has optional parameters. -/
def NoOptional (g : Graph T V) : Prop := ∀ k n, g.get? k = some n → ∀ p ∈ n.inputTypes, p.2.2 = .required

/-- Everything in the cache is what the code with that source computes from those values; for a computation that raises
there may be a `None`. -/
def EntriesSound [DecidableEq V] (pyNone : V) (code : String → List V → Except UserErr V) (t : LegacyCache V) : Prop :=
  ∀ h vs v, t.entries.get? (h, vs) = some v → code h vs = .ok v ∨ (v = pyNone ∧ ∃ e, code h vs = .error e)

/-- The sources the adapter remembers are those of the nodes of this graph. -/
def RemembersGraph (g : Graph T V) (src : Node T V → String) (t : LegacyCache V) : Prop :=
  ∀ k h, t.used.get? k = some h → ∀ n, g.get? k = some n → h = src n

/-- The cache holds a result other than `None` under the key. -/
def HasResult [DecidableEq V] (pyNone : V) (t : LegacyCache V) (key : String × List V) : Prop :=
  ∃ v, t.entries.get? key = some v ∧ v ≠ pyNone

/-- What a run did apart from its adapter. -/
def withoutAdapter {σ ε : Type} : Out (ExecState V × σ) ε → Out (ExecState V) ε
  | .ok s => .ok s.1
  | .err e s => .err e s.1

/-- The adapter after a run, successful or not. -/
def cacheAfter {ε : Type} (o : Out (ExecState V × HookState V (LegacyCache V)) ε) : LegacyCache V := o.state.2.st

/-- Everything in the cache carries a tag, which the history lists. -/
def TagsRecorded [DecidableEq V] (t : LegacyCache V) : Prop :=
  ∀ key v, t.entries.get? key = some v →
    ∃ node hash hist, t.tags.get? key = some (node, hash) ∧ t.history.get? node = some hist ∧ hash ∈ hist

end Verif
