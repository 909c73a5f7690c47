import Verif.Model.MetadataStore

/-! What a metadata store should answer, in terms of the history of operations only. -/
namespace Verif

/-- The operation may change what is stored under `key`. -/
def MetaOp.Touches (key : CKey) : MetaOp → Prop
  | .start _ => False
  | .set k _ _ _ _ => k = key
  | .delete k => k = key
  | .deleteAll => True

/-- `version` was set last for `key`, and neither deleted nor overwritten since. -/
def Current (ops : List MetaOp) (key : CKey) (version : String) : Prop :=
  ∃ before run name code after, ops = before ++ .set key version run name code :: after ∧
    ∀ op ∈ after, ¬ op.Touches key

/-- Histories as the adapter produces them with deterministic functions: no `delete_all`, string keys with name and code
version given, and a key is only set again with the version it has. -/
def Deterministic : List MetaOp → Prop
  | ops => ∀ before op after, ops = before ++ op :: after → match op with
    | .set key version _ name code => key ≠ none ∧ name ≠ none ∧ code ≠ none ∧ ∀ v, Current before key v → v = version
    | .deleteAll => False
    | _ => True

end Verif
