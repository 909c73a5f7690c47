import Verif.Model.Caching
import Verif.Spec.CacheKey
import Verif.Spec.Denotation

/-! Vocabulary for statements about cached executions. -/
namespace Verif
variable {T V M : Type}

/-- What is assumed of fingerprints, uuids and cache-key compression: different values have different fingerprints, which are
plain text (base64: no comma, no angle bracket); `uuid4` never repeats. -/
structure CacheEnv.Lawful (env : CacheEnv V) : Prop where
  separates : ∀ {v v' d}, env.hash v = some d → env.hash v' = some d → v = v'
  hash_comma : ∀ {v d}, env.hash v = some d → ',' ∉ d.toList
  hash_plain : ∀ {v d}, env.hash v = some d → '<' ∉ d.toList
  uuid_inj : ∀ {i j}, env.uuid i = env.uuid j → i = j
  uuid_comma : ∀ i, ',' ∉ (env.uuid i).toList
  codec : env.codec.Lawful
  dash : env.alnum '-' = false

/-- What is assumed of a metadata store: while it is open, starting a run, setting and getting do not fail, and it never
returns a version that was not set for that key. `Ready m run`: the run was started. -/
structure MetaStore.Lawful (S : MetaStore M) (Open : M → Prop) (Ready : M → String → Prop) : Prop where
  open_of_ready : ∀ {m run}, Ready m run → Open m
  get_ok : ∀ {m} k, Open m → ∃ o, S.get m k = .ok o
  start_ok : ∀ {m} run, Open m → (S.start m run).2 = none ∧ Ready (S.start m run).1 run
  start_get : ∀ {m run k v}, Open m → S.get (S.start m run).1 k = .ok (some v) → S.get m k = .ok (some v)
  set_ok : ∀ {m run} k v name code, Ready m run →
    (S.set m k v run name code).2 = none ∧ Ready (S.set m k v run name code).1 run
  set_get : ∀ {m run k v name code k' v'}, Ready m run → S.get (S.set m k v run name code).1 k' = .ok (some v') →
    S.get m k' = .ok (some v') ∨ (k' = k ∧ v' = v)

/-- Two dicts are equal in the sense of Python. -/
def SameArgs (d d' : Dict Name V) : Prop := ∀ k, d.get? k = d'.get? k

/-- The sessions the property speaks about. `impl name code` is the function that the code version `code` stands for in a node
with (sanitised) name `name`: code versions identify functions. Behaviours may be default, recompute or disable. Inputs do not
name functions; default values of parameters are given under the names of parameters; results of loaders, once unpacked, are
returned as they are; no savers are cached. -/
structure Session.Valid (env : CacheEnv V) (impl : String → String → Dict Name V → Except UserErr V) (sess : Session T V) :
    Prop where
  wf : WellFormed sess.graph
  nodes : ∀ n ∈ sess.nodes, sess.graph.get? n.name = some n
  raw : ∀ {k v}, sess.rawInputs.get? k = some v → sess.inputs.get? k = some v
  raw_nodup : sess.rawInputs.keys.Nodup
  override_nodup : sess.overrides.keys.Nodup
  raw_inputs : ∀ {k n}, sess.graph.get? k = some n → n.kind ≠ .external → sess.rawInputs.get? k = none
  names : ∀ {k n}, sess.graph.get? k = some n → ',' ∉ k.toList
  behaviors : ∀ {k n}, sess.graph.get? k = some n → ∃ b, sess.behaviors.get? k = some b ∧ b ≠ .ignore
  codes : ∀ {k n}, sess.graph.get? k = some n → n.kind ≠ .external →
    ∃ c, sess.codes.get? k = some c ∧ ∀ kw, n.fn kw = impl (safeName env.alnum k) c kw
  defaults : ∀ {k n}, sess.graph.get? k = some n → ∀ p ∈ sess.defaults k, p.1 ∈ n.inputTypes.keys
  defaults_fn : ∀ {k n}, sess.graph.get? k = some n → ∀ kw,
    (∀ p ∈ kw, p.1 ∈ n.inputTypes.keys) → n.fn (resolveDefaults (sess.defaults k) kw) = n.fn kw
  loaders : ∀ {k n kw v}, k ∈ sess.loaders → sess.graph.get? k = some n → n.fn kw = .ok v → env.tupleHead v = none
  savers : sess.savers = []

/-- Keyword arguments have no order. -/
def Unordered (impl : String → String → Dict Name V → Except UserErr V) : Prop :=
  ∀ name code kw kw', SameArgs kw kw' → impl name code kw = impl name code kw'

/-- `s'` is `s` with some entries of the stores deleted, or with the stores closed and opened again. -/
structure Deletion (S : MetaStore M) (Open : M → Prop) (s s' : CacheState M V) : Prop where
  isOpen : Open s'.store
  store : ∀ k v, S.get s'.store (some k) = .ok (some v) → S.get s.store (some k) = .ok (some v)
  results : ∀ d r, s'.results.get? d = some r → s.results.get? d = some r
  counter : s'.counter = s.counter
  issued : s'.issued = s.issued

/-- Histories: any number of cached executions (possibly of different graphs with different code), killed at any point between
two store operations or not, and deletions, starting with empty stores. -/
inductive History (env : CacheEnv V) (S : MetaStore M) (Open : M → Prop)
    (impl : String → String → Dict Name V → Except UserErr V) : CacheState M V → Prop
  | empty {s} : Open s.store → (∀ k v, S.get s.store (some k) ≠ .ok (some v)) → s.results = [] → s.issued = [] →
      History env S Open impl s
  | session {T : Type} {s} {sess : Session T V} : History env S Open impl s → sess.Valid env impl → sess.torn = false →
      History env S Open impl (runSession env S sess s).state.2
  | delete {s s'} : History env S Open impl s → Deletion S Open s s' → History env S Open impl s'

/-- The execution without cache. -/
def Session.plain (sess : Session T V) : Out (ExecState V) ExecErr :=
  executeSubdag sess.graph sess.nodes sess.inputs sess.overrides

/-- The cached execution has the outcome `plain`: the same values, calls and, if any, the same exception. -/
inductive SameOutcome : Out (ExecState V × CacheState M V) ExecErr → Out (ExecState V) ExecErr → Prop
  | ok {s t} : SameOutcome (.ok (s, t)) (.ok s)
  | err {e s t} : SameOutcome (.err e (s, t)) (.err e s)

/-- What is further assumed of a metadata store: it does not forget. -/
structure MetaStore.Retains (S : MetaStore M) (Open : M → Prop) (Ready : M → String → Prop) : Prop where
  start_same : ∀ {m run k}, Open m → S.get (S.start m run).1 k = S.get m k
  set_same : ∀ {m run k v name code}, Ready m run → ∃ v', S.get (S.set m (some k) v run name code).1 (some k) = .ok (some v')
  set_other : ∀ {m run k v name code k'}, Ready m run → k' ≠ k → S.get (S.set m k v run name code).1 k' = S.get m k'

end Verif
