import Verif.Model.Decorators

/-!
`@extract_columns` and `@parameterize_extract_columns` (`hamilton/function_modifiers/expanders.py`). Asynchronous functions are
not modelled.
-/
namespace Verif
variable {T V : Type}

/-- How a library adds a column: pandas, dask, vaex and others to the dataframe itself (`fill_with_scalar_pandas`,
pandas_extensions.py:52-55); polars to a copy (`fill_with_scalar_polars`, polars_extensions.py:47-51); ibis not at all
(ibis_extensions.py:27-31). -/
inductive FillKind where
  | inPlace
  | copying
  | unsupported
  deriving DecidableEq

/-- The label of a column: a string, a pair of strings, or a number (the default of pandas). -/
inductive Label where
  | str (s : Name)
  | pair (a b : String)
  | num (i : Nat)
  deriving DecidableEq

/-- A dataframe: its number of rows and its columns in order. The labels are taken to be distinct. -/
structure Frame (V : Type) where
  lib : FillKind
  height : Nat
  columns : Dict Label V

/-- What has to be known of values: which are dataframes, how one is made, and the column that repeats a scalar. -/
structure FrameOps (V : Type) where
  asFrame : V → Option (Frame V)
  mkFrame : Frame V → V
  repeated : Nat → V → V

/-- A dataframe is read back as what it is. -/
structure FrameOps.Lawful (fops : FrameOps V) : Prop where
  frame : ∀ d, fops.asFrame (fops.mkFrame d) = some d

/-! ### `@extract_columns` -/

/-- An argument of `@extract_columns`, expanders.py:568: a name, or a name with documentation. -/
inductive ColumnArg where
  | name (c : Name)
  | documented (c : Name) (doc : String)
  deriving DecidableEq

/-- `column, doc_string = column`, expanders.py:656-657. -/
def ColumnArg.column : ColumnArg → Name
  | .name c => c
  | .documented c _ => c

/-- The argument itself as a label, as `df_generator` uses it (expanders.py:644-648). -/
def ColumnArg.label : ColumnArg → Label
  | .name c => .str c
  | .documented c d => .pair c d

/-- The loop of expanders.py:645-648. What `fill_with_scalar` returns is dropped: with a library that copies, the assertion
fails (simplification: polars may also raise before that, if the dataframe has not exactly one row). -/
def fillColumns (fops : FrameOps V) (fill : V) : List ColumnArg → Frame V → Except UserErr (Frame V)
  | [], d => .ok d
  | a :: as, d =>
    if d.columns.has a.label then fillColumns fops fill as d
    else
      match d.lib with
      | .inPlace => fillColumns fops fill as { d with columns := d.columns.set a.label (fops.repeated d.height fill) }
      | .copying => .error "AssertionError"
      | .unsupported => .error "NotImplementedError"

/-- `df_generator`, expanders.py:642-649. The dataframe is changed in place in Python; here a new one is returned. -/
def dfGenerator (fops : FrameOps V) (fn : Dict Name V → Except UserErr V) (args : List ColumnArg) (fill : Option V)
    (kw : Dict Name V) : Except UserErr V :=
  match fn kw with
  | .error e => .error e
  | .ok v =>
    match fill with
    | none => .ok v
    | some f =>
      match fops.asFrame v with
      | none => .error "TypeError"
      | some d =>
        match fillColumns fops f args d with
        | .error e => .error e
        | .ok d' => .ok (fops.mkFrame d')

/-- `extractor_fn`, expanders.py:672-681. Its first parameter is called `column_to_extract`: a keyword argument of that name
never reaches `kwargs`. -/
def columnExtractor (fops : FrameOps V) (nodeName column : Name) (kw : Dict Name V) : Except UserErr V :=
  if nodeName = "column_to_extract" then .error "KeyError"
  else
    match kw.get? nodeName with
    | none => .error "KeyError"
    | some v =>
      match fops.asFrame v with
      | none => .error "TypeError"
      | some d =>
        match d.columns.get? (.str column) with
        | none => .error "InvalidDecoratorException"
        | some w => .ok w

/-- One of the nodes of expanders.py:683-692. -/
def extractedColumn (fops : FrameOps V) (colT : T) (n : Node T V) (column : Name) : Node T V :=
  { name := column, typ := colT, kind := .standard, inputTypes := [(n.name, (n.typ, .required))],
    dependencies := [], dependedOnBy := [], fn := columnExtractor fops n.name column }

/-- `extract_columns`: the constructor (expanders.py:579-583; lists as arguments are left out) and `transform_node`
(616-693). `colT` is the type of the columns of the dataframe. -/
def extractColumns (fops : FrameOps V) (colT : T) (args : List ColumnArg) (fill : Option V) (n : Node T V) :
    Except UserErr (List (Node T V)) :=
  if args.isEmpty then .error "InvalidDecoratorException"
  else .ok ({ n with fn := dfGenerator fops n.fn args fill } :: args.map (fun a => extractedColumn fops colT n a.column))

/-! ### `@parameterize_extract_columns` -/

/-- `ParameterizedExtract`, expanders.py:853-865. -/
structure ParameterizedExtract (V : Type) where
  outputs : List Name
  mapping : Dict Name (ParamDep V)

/-- `wrapper_fn`, expanders.py:924-928; assigning `columns` raises if their number is another. A parameter of the function called
`_output_columns` is left out. The dataframe is changed in place in Python; here a new one is returned. -/
def wrapperFn (fops : FrameOps V) (raw : Dict Name V → Except UserErr V) (outputs : List Name) (kw : Dict Name V) :
    Except UserErr V :=
  match raw kw with
  | .error e => .error e
  | .ok v =>
    match fops.asFrame v with
    | none => .error "AttributeError"
    | some d =>
      if d.columns.length = outputs.length then
        .ok (fops.mkFrame { d with columns := (outputs.map Label.str).zip (d.columns.map (·.2)) })
      else .error "ValueError"

/-- The loop of `parameterize_extract_columns.expand_node`, expanders.py:921-948, from the `i`-th extract on. `raw` is the
function that is decorated; `n.fn` is that of its node, which is another one if e.g. `@does` is used as well. `reassign` is the
argument `reassign_columns`: the function it chooses (expanders.py:931) is only used to format the documentation
(expanders.py:163), since `parameterize.expand_node` calls the function of the node it is given. -/
def parameterizeExtract (fops : FrameOps V) (ops : PyOps V) (comp : T → T) (colT : T) (raw : Dict Name V → Except UserErr V)
    (reassign : Bool) (n : Node T V) : Nat → List (ParameterizedExtract V) → Except UserErr (List (Node T V))
  | _, [] => .ok []
  | i, p :: ps =>
    let newNode : Node T V := { n with fn := wrapperFn fops raw p.outputs }
    let parameterized : List (Node T V) := parameterize ops comp [(some (n.name ++ "__" ++ toString i), p.mapping)] newNode
    match parameterized with
    | [m] =>
      match extractColumns fops colT (p.outputs.map .name) none m with
      | .error e => .error e
      | .ok ms =>
        match parameterizeExtract fops ops comp colT raw reassign n (i + 1) ps with
        | .error e => .error e
        | .ok rest => .ok (ms ++ rest)
    | _ => .error "ValueError"

end Verif
