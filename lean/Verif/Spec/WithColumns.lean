import Verif.Model.WithColumns
import Verif.Spec.Pipe

/-!
What `@with_columns` is for: the decorated function sees its dataframe with the computed columns added.
-/
namespace Verif
variable {T V : Type}

/-- The dataframe parameter: the one named by `on_input`, or the first one. -/
def FrameParam (d : WithColumns) (sig : List Name) (param : Name) : Prop :=
  d.onInput = some param ∨ (d.onInput = none ∧ sig.head? = some param)

/-- The columns that are taken from the dataframe: `columns_to_pass`, unless `on_input` is used. -/
def WithColumns.passed (d : WithColumns) : List Name := if d.onInput.isSome then [] else d.columns.getD []

/-- `given` are inputs for a separate driver with graph `h` for the functions: those that are needed for the columns `sel`
and that no function computes are columns of the dataframe `df` or have their value in the surrounding graph `g`, or are not
given there either. -/
def GivenColumns (lib : FrameLib T V) (g h : Graph T V) (inputs overrides : Dict Name V) (passed sel : List Name) (df : V)
    (given : Dict Name V) : Prop :=
  ∀ p m, Needed h [] sel p → h.get? p = some m → m.kind = .external →
    (p ∈ passed → ∃ v, lib.column df p = .ok v ∧ given.get? p = some v) ∧
    (p ∉ passed → (∃ v, given.get? p = some v ∧ Den g inputs overrides p v) ∨
      (given.get? p = none ∧ Absent g inputs overrides p))

/-- The value of a selected column: the column of the dataframe itself, or what the separate driver computes. -/
def ColumnValue (lib : FrameLib T V) (h : Graph T V) (passed : List Name) (df : V) (given : Dict Name V) (c : Name) (v : V) :
    Prop :=
  (c ∈ passed ∧ lib.column df c = .ok v) ∨ (c ∉ passed ∧ Den h given [] c v)

/-- The dataframe with the selected columns added or replaced. -/
def Extended (lib : FrameLib T V) (h : Graph T V) (passed : List Name) (df : V) (given : Dict Name V) (sel : List Name)
    (df' : V) : Prop :=
  ∃ cols : Dict Name V, cols.keys = sel ∧ (∀ c v, (c, v) ∈ cols → ColumnValue lib h passed df given c v) ∧
    lib.assign df cols = .ok df'

/-- Names that do not get into each other's way: nothing is called like the dataframe parameter or `_append`, and nobody
refers to the namespace `ns` from outside. -/
structure ColumnNames (ns param : Name) (passed : List Name) (subs nodes : List (Node T V)) : Prop where
  param_sub : ∀ n ∈ subs, n.name ≠ param
  param_col : param ∉ passed
  param_append : param ≠ "_append"
  append_sub : ∀ n ∈ subs, n.name ≠ "_append" ∧ "_append" ∉ n.inputTypes.keys
  append_col : "_append" ∉ passed
  outside_sub : ∀ n ∈ subs, ∀ p ∈ n.inputTypes.keys, ∀ q, p ≠ ns ++ "." ++ q
  outside_fn : ∀ n ∈ nodes, ∀ p ∈ n.inputTypes.keys, ∀ q, p ≠ ns ++ "." ++ q

end Verif
