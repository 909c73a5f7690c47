import Verif.Model.Driver
import Verif.Model.Lifecycle
import Verif.Model.Remote

/-!
Execution as UDFs of PySpark (C79): `PySparkUDFGraphAdapter`, hamilton/plugins/h_spark.py:425-523, and the helpers it uses,
h_spark.py:235-422.

Not modelled: the conversion of Python values to Spark values and back (a cell holds what the function returned), the names of
columns that Spark takes to be equal although they differ in case, partitions, names with dots (they give a `SyntaxError` in
`_fabricate_spark_function`), hooks of other adapters.
-/
namespace Verif.Spark
open Verif
variable {T V : Type}

/-- A cell of a dataframe. Spark is lazy: a UDF that raises makes an action fail that needs the cell, here the cell is an
error. -/
abbrev Cell (V : Type) := Except UserErr V

/-- A `pyspark.sql.DataFrame`: the names of its columns in order and its rows. -/
structure Frame (V : Type) where
  columns : List Name
  rows : List (Dict Name (Cell V))

/-- A value that the executor passes around: a dataframe (`isinstance(x, DataFrame)`, h_spark.py:299) or anything else. -/
inductive SVal (V : Type) where
  | scalar (v : V)
  | frame (f : Frame V)

/-- The value, if it is not a dataframe. -/
def SVal.value? : SVal V → Option V
  | .scalar v => some v
  | .frame _ => none

/-- What the adapter looks at in a type annotation: `isSeries`: `_get_type_from_annotation(type_) == pd.Series`
(h_spark.py:242-248); `udfReturn`: `get_spark_type` (h_spark.py:221-232) knows the type; `seriesReturn`: the type has an argument
that is a string or known to `get_spark_type` (h_spark.py:400-412). -/
structure Kinds (T : Type) where
  isSeries : T → Bool
  udfReturn : T → Bool
  seriesReturn : T → Bool

/-- `df.withColumn(name, ...)` (used in h_spark.py:418 and 516): a column of that name is replaced, else one is added at the end;
the content of a cell depends on its row. -/
def Frame.withColumn (f : Frame V) (k : Name) (c : Dict Name (Cell V) → Cell V) : Frame V :=
  ⟨if f.columns.contains k then f.columns else f.columns ++ [k], f.rows.map (fun r => r.set k (c r))⟩

/-- `df.select(*columns)` (used in h_spark.py:519). -/
def Frame.select (f : Frame V) (ks : List Name) : Frame V :=
  ⟨ks, f.rows.map (fun r => ks.filterMap (fun k => (r.get? k).map (fun c => (k, c))))⟩

/-- A function on values as the executor sees it. Simplification: functions take and return values other than dataframes; a
function on `pd.Series` is represented by what it does to a row. -/
def scalarFn (f : Dict Name V → Except UserErr V) (kw : Dict Name (SVal V)) : Except UserErr (SVal V) :=
  match gather SVal.value? kw with
  | some args => (f args).map .scalar
  | none => .error "TypeError"

/-- The same node with another function (no counterpart in the code: it changes the type of values of the model). -/
def revalNode {V' : Type} (f : (Dict Name V → Except UserErr V) → Dict Name V' → Except UserErr V') (n : Node T V) : Node T V' :=
  { name := n.name, typ := n.typ, kind := n.kind, inputTypes := n.inputTypes, dependencies := n.dependencies,
    dependedOnBy := n.dependedOnBy, fn := f n.fn }

/-- The same graph with other functions. -/
def revalGraph {V' : Type} (f : (Dict Name V → Except UserErr V) → Dict Name V' → Except UserErr V') (g : Graph T V) :
    Graph T V' :=
  g.map (fun p => (p.1, revalNode f p.2))

/-- The graph of functions on values as the executor sees it. -/
def sparkGraph (g : Graph T V) : Graph T (SVal V) := revalGraph scalarFn g

/-- `_inspect_kwargs`, h_spark.py:290-304, first component: the first dataframe. -/
def firstFrame : Dict Name (SVal V) → Option (Frame V)
  | [] => none
  | (_, .frame f) :: _ => some f
  | (_, .scalar _) :: r => firstFrame r

/-- `_inspect_kwargs`, h_spark.py:290-304, second component: the arguments that are not dataframes. -/
def plainKwargs : Dict Name (SVal V) → Dict Name V
  | [] => []
  | (_, .frame _) :: r => plainKwargs r
  | (k, .scalar v) :: r => (k, v) :: plainKwargs r

/-- `_determine_parameters_to_bind`, h_spark.py:254-287: the parameters taken from the dataframe and those that are bound. -/
def determineParams (actual : Dict Name V) (columns : List Name) :
    Dict Name (T × DepType) → Except UserErr (List Name × Dict Name V)
  | [] => .ok ([], [])
  | (k, t) :: r =>
    if columns.contains k then
      (determineParams actual columns r).map (fun p => (k :: p.1, p.2))
    else
      match actual.get? k with
      | some v => (determineParams actual columns r).map (fun p => (p.1, (k, v) :: p.2))
      | none =>
        if t.2 = .required then .error "ValueError" else determineParams actual columns r

/-- `_get_pandas_annotations`, h_spark.py:235-251: for every required parameter that is not bound, whether it is a series. -/
def pandasAnnotations (o : Kinds T) (bound : Dict Name V) (params : Dict Name (T × DepType)) : List Bool :=
  (params.filter (fun p => !bound.has p.1 && p.2.2 = .required)).map (fun p => o.isSeries p.2.1)

/-- Insertion into a sorted list. -/
def insertName (k : Name) : List Name → List Name
  | [] => [k]
  | a :: r => if k ≤ a then k :: a :: r else a :: insertName k r

/-- Python's `sorted` on names (h_spark.py:362, 420). -/
def sortNames (l : List Name) : List Name := l.foldr insertName []

/-- The cells of a row under the given names; an error if one of them is one, or if there is no such column (Spark's
`AnalysisException`). -/
def cellsOf (row : Dict Name (Cell V)) : List Name → Except UserErr (Dict Name V)
  | [] => .ok []
  | k :: r =>
    match row.get? k with
    | none => .error "AnalysisException"
    | some (.error e) => .error e
    | some (.ok v) => (cellsOf row r).map ((k, v) :: ·)

/-- What the fabricated UDF computes for a row (h_spark.py:307-370): the function of the node, with the bound parameters as keyword
arguments, and the columns by their names. Simplification: the UDF of a function on series works on batches of rows, see
`scalarFn`. -/
def udfCell (n : Node T (SVal V)) (bound : Dict Name V) (fromDf : List Name) (row : Dict Name (Cell V)) : Cell V :=
  match cellsOf row (sortNames fromDf) with
  | .error e => .error e
  | .ok args =>
    match n.fn ((bound ++ args).map (fun p => (p.1, .scalar p.2))) with
    | .error e => .error e
    | .ok (.scalar v) => .ok v
    | .ok (.frame _) => .error "PythonException"

/-- `_lambda_udf`, h_spark.py:373-422. -/
def lambdaUdf (o : Kinds T) (df : Frame V) (n : Node T (SVal V)) (actual : Dict Name V) : Except UserErr (Frame V) :=
  match determineParams actual df.columns n.inputTypes with
  | .error e => .error e
  | .ok (fromDf, bound) =>
    let ann := pandasAnnotations o bound n.inputTypes
    if ann.any id && !(ann.all id) then .error "ValueError"
    else if ann.all id && !ann.isEmpty then
      if o.seriesReturn n.typ then .ok (df.withColumn n.name (udfCell n bound fromDf)) else .error "ValueError"
    else
      if o.udfReturn n.typ then .ok (df.withColumn n.name (udfCell n bound fromDf)) else .error "ValueError"

/-- State of the adapter, h_spark.py:441-444: `df_object` and `original_schema`. -/
structure Adapter (V : Type) where
  df : Option (Frame V)
  schema : List Name

/-- `__init__`, h_spark.py:441-444. -/
def Adapter.fresh : Adapter V := ⟨none, []⟩

/-- The first dataframe that comes along is kept, h_spark.py:483-485. -/
def Adapter.start (t : Adapter V) (df : Frame V) : Adapter V :=
  match t.df with
  | none => ⟨some df, df.columns⟩
  | some _ => t

/-- `execute_node`, h_spark.py:470-499. (The assertion in line 490 holds, since `withColumn` adds the column.) -/
def sparkRun (o : Kinds T) : Runner T (SVal V) (Adapter V) := fun n kw t =>
  match firstFrame kw with
  | none => (n.fn ((plainKwargs kw).map (fun p => (p.1, .scalar p.2))), t)
  | some df =>
    let t1 := t.start df
    match lambdaUdf o (t1.df.getD df) n (plainKwargs kw) with
    | .error e => (.error e, t1)
    | .ok df' =>
      if df'.columns.length = df.columns.length then (.error "ValueError", t1)
      else (.ok (.frame df'), { t1 with df := some df' })

/-- The loop of `build_result`, h_spark.py:510-516: adds the names of the outputs to the schema, and columns for the outputs that
have none. `null` is Python's `None`. `lit` of a dataframe raises. -/
def addOutputs (null : V) : Dict Name (Option (SVal V)) → Frame V → List Name → Except UserErr (Frame V) × List Name
  | [], df, schema => (.ok df, schema)
  | (k, w) :: r, df, schema =>
    let schema' := if schema.contains k then schema else schema ++ [k]
    if df.columns.contains k then addOutputs null r df schema'
    else
      match w with
      | none => addOutputs null r (df.withColumn k (fun _ => .ok null)) schema'
      | some (.scalar v) => addOutputs null r (df.withColumn k (fun _ => .ok v)) schema'
      | some (.frame _) => (.error "TypeError", schema')

/-- `build_result`, h_spark.py:501-523. -/
def buildResult (null : V) (outputs : Dict Name (Option (SVal V))) (t : Adapter V) : Except UserErr (Frame V) × Adapter V :=
  match t.df with
  | none => (.error "AttributeError", ⟨none, match outputs with
      | [] => t.schema
      | (k, _) :: _ => if t.schema.contains k then t.schema else t.schema ++ [k]⟩)
  | some df =>
    match addOutputs null outputs df t.schema with
    | (.error e, schema) => (.error e, ⟨some df, schema⟩)
    | (.ok df', schema) => (.ok (df'.select schema), .fresh)

/-- How an execution ends if not with a result. -/
inductive SparkErr where
  | driver (e : DriverErr)
  | build (e : UserErr)

/-- `Driver.execute` with the adapter: `DefaultGraphExecutor.execute` (driver.py:164-183), where functions are run by
`execute_node`, then `build_result` (driver.py:622-630). Simplification: the checks before the execution (C07, C12) are left out;
the adapter lets a dataframe pass as a value of any type (h_spark.py:446-451). -/
def sparkExecute (o : Kinds T) (null : V) (fg : FnGraph T (SVal V)) (finalVars : List Name)
    (overrides inputs : Dict Name (SVal V)) (t : Adapter V) : Except SparkErr (Frame V) × Adapter V :=
  match combineConfigAndInputs fg.config inputs with
  | .error ks => (.error (.driver (.clash ks)), t)
  | .ok all =>
    match executeWith fg.nodes (finalVars.filterMap (fun k => fg.nodes.get? k)) all overrides (sparkRun o) t with
    | .err e (_, t') => (.error (.driver (.exec e)), t')
    | .ok (s, t') =>
      match buildResult null (finalVars.foldl (fun out k =>
        out.set k (match s.computed.get? k with
          | some v => some v
          | none => inputs.get? k)) []) t' with
      | (.error e, t'') => (.error (.build e), t'')
      | (.ok f, t'') => (.ok f, t'')

end Verif.Spark
