import Verif.Model.FileCache
import Verif.Proofs.Stateless

/-! What `CachingGraphAdapter` promises. -/
namespace Verif
variable {T V W : Type}

/-- The functions that are to be computed although they are configured to be cached, and what depends on them: a cached one
that is forced or has no file, and everything below. -/
inductive Recomputed (a : FileAdapter T V W) (g : Graph T V) (overrides : Dict Name V) (files : Dict String W) : Name → Prop
  | here {k n f} : g.get? k = some n → n.kind ≠ .external → overrides.get? k = none → a.fmt k = some f →
      (k ∈ a.force ∨ files.get? (k ++ "." ++ f) = none) → Recomputed a g overrides files k
  | dependent {k n d} : g.get? k = some n → n.kind ≠ .external → overrides.get? k = none → d ∈ n.inputTypes.keys →
      Recomputed a g overrides files d → Recomputed a g overrides files k

/-- What a function counts as in a run that starts with the given files: a cached one that need not be recomputed is replaced
by loading its file, one that is recomputed also has to be written. -/
noncomputable def served (a : FileAdapter T V W) (g : Graph T V) (overrides : Dict Name V) (files : Dict String W)
    (n : Node T V) (kw : Dict Name V) : Except UserErr V :=
  match a.fmt n.name with
  | none => n.fn kw
  | some f =>
    open Classical in
    if Recomputed a g overrides files n.name then
      match n.fn kw with
      | .error e => .error e
      | .ok v =>
        match (a.write f v n.name files).1 with
        | some e => .error e
        | none => .ok v
    else
      match files.get? (n.name ++ "." ++ f) with
      | some x => a.read f n.typ x
      | none => n.fn kw

/-- Different cached nodes have different files. -/
def FilesDistinct (a : FileAdapter T V W) : Prop :=
  ∀ k k' f f', a.fmt k = some f → a.fmt k' = some f' → k ++ "." ++ f = k' ++ "." ++ f' → k = k'

/-- The content of a file is loaded as the value. -/
def Loads (a : FileAdapter T V W) (f : String) (typ : T) (x : W) (v : V) : Prop :=
  a.empty typ = none ∧ (∃ w, a.writers.get? f = some w) ∧ ∃ r, a.readers.get? f = some r ∧ r typ x = .ok v

/-- Writing the value succeeds, and it is what is loaded afterwards. -/
def Stores (a : FileAdapter T V W) (f : String) (typ : T) (k : Name) (v : V) : Prop :=
  ∃ w x, a.writers.get? f = some w ∧ w v k = (some x, none) ∧ Loads a f typ x v

/-- All the files there are hold the values of their nodes for these inputs and overrides. -/
def FilesTrue (a : FileAdapter T V W) (g : Graph T V) (inputs overrides : Dict Name V) (files : Dict String W) : Prop :=
  ∀ k n f x, g.get? k = some n → n.kind ≠ .external → overrides.get? k = none → a.fmt k = some f →
    files.get? (k ++ "." ++ f) = some x → ∃ v, Loads a f n.typ x v ∧ Den g inputs overrides k v

/-- The values of the cached nodes can be stored. -/
def Storable (a : FileAdapter T V W) (g : Graph T V) (inputs overrides : Dict Name V) : Prop :=
  ∀ k n f v, g.get? k = some n → n.kind ≠ .external → overrides.get? k = none → a.fmt k = some f →
    Den g inputs overrides k v → Stores a f n.typ k v

/-- The graph after its code was edited: same nodes, types and parameters, and only the named functions differ. -/
def Edited (g g' : Graph T V) (changed : List Name) : Prop :=
  (∀ k, g.get? k = none ↔ g'.get? k = none) ∧
  ∀ k n n', g.get? k = some n → g'.get? k = some n' → n.kind = n'.kind ∧ n.typ = n'.typ ∧ n.inputTypes = n'.inputTypes ∧
    (k ∉ changed → n.fn = n'.fn)

end Verif
