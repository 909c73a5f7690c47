import Verif.Dict
import Verif.Model.Node

/-!
The result builders of hamilton/base.py: `PandasDataFrameResult`, `StrictIndexTypePandasDataFrameResult`, `NumpyMatrixResult`.
pandas itself is not modelled: an output is described by what the builders look at, and a call of the constructor
`pd.DataFrame` is recorded with its argument. Warnings and debug output are left out.
-/
namespace Verif
variable {S : Type}

/-- The index of a series or frame: its class and dtype (`index_key_name`, base.py:110-113), and whether it is a time or
categorical index (base.py:115-121, 128). -/
structure IndexKind where
  key : String
  time : Bool
  deriving DecidableEq

/-- An output of a run, base.py:123-141, 248-276. `S` are columns and other values. The columns of a frame are those of
`to_dict(orient="series")` (base.py:258): their names are written as strings here (base.py:242-246 formats them), and names
repeated in a frame are left out. `other` values may be list-like (`pd.api.types.is_list_like`, base.py:217). -/
inductive PdOutput (S : Type) where
  | frame (columns : List (String × S)) (index : IndexKind)
  | series (v : S) (index : IndexKind)
  | index (v : S)
  | other (listLike : Bool) (v : S)

/-- `collections.defaultdict(list)`: append to the list of a key. -/
def addTo (d : Dict String (List Name)) (k : String) (n : Name) : Dict String (List Name) :=
  d.set k ((d.get? k).getD [] ++ [n])

/-- The three dictionaries of `pandas_index_types`. -/
structure IndexTypes where
  all : Dict String (List Name) := []
  time : Dict String (List Name) := []
  no : Dict String (List Name) := []

/-- One iteration of the loop base.py:123-141. `intKey` is the key of the dummy series base.py:134-137. -/
def indexStep (intKey : String) (t : IndexTypes) (name : Name) : PdOutput S → IndexTypes
  | .frame _ i => { t with all := addTo t.all i.key name, time := if i.time then addTo t.time i.key name else t.time }
  | .series _ i => { t with all := addTo t.all i.key name, time := if i.time then addTo t.time i.key name else t.time }
  | .index _ => { t with all := addTo t.all intKey name }
  | .other _ _ => { t with all := addTo t.all "no-index" name, no := addTo t.no "no-index" name }

/-- `pandas_index_types`, base.py:92-142. -/
def pandasIndexTypes (intKey : String) : Dict Name (PdOutput S) → IndexTypes → IndexTypes
  | [], t => t
  | (name, o) :: rest, t => pandasIndexTypes intKey rest (indexStep intKey t name o)

/-- `check_pandas_index_types_match`, base.py:144-195. -/
def indexTypesMatch (t : IndexTypes) : Bool :=
  let noIndex := t.no.length
  let times := t.time.length
  let all := t.all.length
  let withIndexes := all - noIndex
  let m := if times > 1 then false else true
  if withIndexes > 1 ∧ all > times then false
  else if withIndexes = 1 ∧ noIndex > 0 then true
  else if noIndex = all then false
  else m

/-- What `build_result` returns: one of the outputs, or the result of the constructor on a one-row list, or on a dictionary of
columns. -/
inductive BuiltResult (S : Type) where
  | same (o : PdOutput S)
  | row (outputs : Dict Name (PdOutput S))
  | table (columns : Dict String (PdOutput S))

/-- The loop of `build_dataframe_with_dataframes`, base.py:248-276; `none` is the `ValueError`. -/
def flatten : Dict Name (PdOutput S) → Dict String (PdOutput S) → Option (Dict String (PdOutput S))
  | [], flat => some flat
  | (name, .frame columns i) :: rest, flat =>
    flatten rest (columns.foldl (fun flat c => flat.set (name ++ "." ++ c.1) (.series c.2 i)) flat)
  | (name, o) :: rest, flat => if flat.has name then none else flatten rest (flat.set name o)

/-- `pd.api.types.is_list_like`, base.py:217. -/
def PdOutput.listLike : PdOutput S → Bool
  | .other l _ => l
  | _ => true

/-- `isinstance(value, pd.DataFrame)`. -/
def PdOutput.isFrame : PdOutput S → Bool
  | .frame _ _ => true
  | _ => false

/-- `PandasDataFrameResult.build_result`, base.py:197-227, without the warnings. -/
def pandasResult (outputs : Dict Name (PdOutput S)) : Option (BuiltResult S) :=
  match outputs with
  | [(_, .frame c i)] => some (.same (.frame c i))
  | _ =>
    if !outputs.any (fun p => p.2.listLike) then some (.row outputs)
    else if outputs.any (fun p => p.2.isFrame) then (flatten outputs []).map .table
    else some (.table outputs)

/-- `StrictIndexTypePandasDataFrameResult.build_result`, base.py:309-325. -/
def strictResult (intKey : String) (outputs : Dict Name (PdOutput S)) : Option (BuiltResult S) :=
  if indexTypesMatch (pandasIndexTypes intKey outputs {}) then pandasResult outputs else none

/-! ### `NumpyMatrixResult` -/

/-- A value for the matrix: a number (`int` or `float`), or something with a length. -/
inductive NpOutput (S : Type) where
  | scalar (v : S)
  | vector (vs : List S)

/-- The first loop, base.py:352-369: the common length (`none` stands for the initial -1), and the columns with the length
recorded for them; `none` is the `ValueError`. The keys `(col, length)` of the code are distinct as the names are. -/
def matrixLengths : Dict Name (NpOutput S) → Option Nat → Option (Option Nat × List (Nat × NpOutput S))
  | [], rows => some (rows, [])
  | (_, .scalar v) :: rest, rows =>
    match matrixLengths rest rows with
    | none => none
    | some (r, cs) => some (r, (1, .scalar v) :: cs)
  | (_, .vector vs) :: rest, none =>
    match matrixLengths rest (some vs.length) with
    | none => none
    | some (r, cs) => some (r, (vs.length, .vector vs) :: cs)
  | (_, .vector vs) :: rest, some n =>
    if vs.length = n then
      match matrixLengths rest (some n) with
      | none => none
      | some (r, cs) => some (r, (n, .vector vs) :: cs)
    else none

/-- The second loop, base.py:370-379. With `num_rows == -1`, `[val] * -1` is empty; `list(val)` of a number raises. The last
branch of the code cannot be reached. -/
def matrixColumn (rows : Option Nat) : Nat × NpOutput S → Option (List S)
  | (len, .scalar v) =>
    match rows with
    | none => some []
    | some n => if len = n then none else some (List.replicate n v)
  | (_, .vector vs) => some vs

/-- The second loop over all columns. -/
def matrixColumns (rows : Option Nat) : List (Nat × NpOutput S) → Option (List (List S))
  | [] => some []
  | c :: cs =>
    match matrixColumn rows c with
    | none => none
    | some col =>
      match matrixColumns rows cs with
      | none => none
      | some cols => some (col :: cols)

/-- `NumpyMatrixResult.build_result`, base.py:342-381, up to the transposition: the columns of the matrix. -/
def numpyResult (outputs : Dict Name (NpOutput S)) : Option (List (List S)) :=
  match matrixLengths outputs none with
  | none => none
  | some (rows, cs) => matrixColumns rows cs

end Verif
