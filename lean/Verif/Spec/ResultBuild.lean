import Verif.Model.ResultBuild

/-! What the result builders should return. -/
namespace Verif
variable {S : Type}

/-- The columns an output stands for: a frame for its columns, prefixed by the name of the output, anything else for itself. -/
def columnsOf : Name × PdOutput S → List (String × PdOutput S)
  | (name, .frame columns i) => columns.map fun c => (name ++ "." ++ c.1, .series c.2 i)
  | (name, o) => [(name, o)]

/-- The columns of all outputs, in the order of the request. -/
def allColumns (outputs : Dict Name (PdOutput S)) : List (String × PdOutput S) := outputs.flatMap columnsOf

/-- A frame does not bring a column of a name that an earlier output has brought. -/
def NoOverwrite (outputs : Dict Name (PdOutput S)) : Prop :=
  ∀ before name columns i after, outputs = before ++ (name, .frame columns i) :: after →
    (columns.map (·.1)).Nodup ∧ ∀ c ∈ columns, name ++ "." ++ c.1 ∉ (allColumns before).map (·.1)

/-- The kind of index of an output: an index object counts as a column of numbers. -/
def kindOf (intKey : String) : PdOutput S → Option String
  | .frame _ i => some i.key
  | .series _ i => some i.key
  | .index _ => some intKey
  | .other _ _ => none

/-- Some output has an index, and all that have one have the same kind of index. -/
def OneKind (intKey : String) (outputs : Dict Name (PdOutput S)) : Prop :=
  ∃ k, (∃ p ∈ outputs, kindOf intKey p.2 = some k) ∧ ∀ p ∈ outputs, ∀ k', kindOf intKey p.2 = some k' → k' = k

/-- The entry of a row in the column of an output. -/
def entry (i : Nat) : NpOutput S → Option S
  | .scalar v => some v
  | .vector vs => vs[i]?

/-- The matrix has the given number of rows and the given outputs as columns. -/
def IsMatrix (n : Nat) (outputs : Dict Name (NpOutput S)) (columns : List (List S)) : Prop :=
  columns.length = outputs.length ∧
  ∀ j (h : j < columns.length) (h' : j < outputs.length), columns[j].length = n ∧
    ∀ i < n, columns[j][i]? = entry i outputs[j].2

end Verif
