import Verif.Model.Subdag
import Verif.Model.Targets
import Verif.Model.Pipe

/-!
`@with_columns` for pandas and polars (`hamilton/function_modifiers/recursive.py`, `with_columns_base`, and
`hamilton/plugins/h_pandas.py`; `h_polars.py` is the same but for `df.with_columns` in place of `df.assign`): a dataframe
parameter of a function is replaced by that dataframe with columns added that other functions compute.
-/
namespace Verif
variable {T V : Type}

/-- The dataframe library: the types of a column and of a dataframe (`registry.get_column_type_from_df_type`,
h_pandas.py:205-209, 219), picking a column (`extractor_fn`, expanders.py:672-681, which raises if there is none) and
`df.assign(**columns)` (h_pandas.py:217; h_polars.py:266 `df.with_columns`). -/
structure FrameLib (T V : Type) where
  colT : T
  dfT : T
  column : V → Name → Except UserErr V
  assign : V → Dict Name V → Except UserErr V

/-- The decorator's state, recursive.py:705-777: `columns_to_pass`, `on_input`, `select` and `namespace`.  `load_from` is
represented by the nodes collected from it (C38, C40), an argument of the functions below. -/
structure WithColumns where
  columns : Option (List Name)
  onInput : Option Name
  select : Option (List Name)
  ns : Option Name
  deriving DecidableEq, Repr

/-- `with_columns.__init__`, h_pandas.py:138-152, and `with_columns_base.__init__`, recursive.py:739-777: an exception if
`pass_dataframe_as` is given, or if exactly one of `columns_to_pass`, `pass_dataframe_as`, `on_input` is missing. -/
def WithColumns.init (columns : Option (List Name)) (passAs onInput : Option Name) (select : Option (List Name))
    (ns : Option Name) : Except UserErr WithColumns :=
  if passAs.isSome then .error "NotImplementedError"
  else if 1 + columns.isNone.toNat + onInput.isNone.toNat = 1 then .error "ValueError"
  else .ok { columns, onInput, select, ns }

/-- `_default_inject_parameter`, recursive.py:639-653; `sig` are the parameters of the decorated function. -/
def injectParameter (sig : List Name) (onInput : Option Name) : Except UserErr Name :=
  match onInput with
  | some p => .ok p
  | none =>
    match sig with
    | [] => .error "ValueError"
    | p :: _ => .ok p

/-- A node that picks a column, h_pandas.py:154-173 and expanders.py:672-692.  Simplification: a dataframe parameter called
`column_to_extract` is not modelled (`extractor_fn` has a parameter of that name). -/
def columnNode (lib : FrameLib T V) (param c : Name) : Node T V :=
  { name := c, typ := lib.colT, kind := .standard, inputTypes := [(param, (lib.dfT, .required))], dependencies := [],
    dependedOnBy := [],
    fn := fun kw => match kw.get? param with
      | none => .error "KeyError"
      | some df => lib.column df c }

/-- `get_initial_nodes`, h_pandas.py:175-193: `*None` is a `TypeError`, no column at all an exception of `extract_columns`
(expanders.py:580-583).  `params` are the parameters that can be injected (`validate_dataframe`, recursive.py:688-703; its
check of the type never fails: `isinstance(type, DataFrame)`). -/
def initialNodes (lib : FrameLib T V) (d : WithColumns) (sig params : List Name) :
    Except UserErr (Name × List (Node T V)) :=
  match injectParameter sig d.onInput with
  | .error e => .error e
  | .ok param =>
    if params.contains param then
      match d.onInput with
      | some _ => .ok (param, [])
      | none =>
        match d.columns with
        | none => .error "TypeError"
        | some [] => .error "InvalidDecoratorException"
        | some cs => .ok (param, cs.map (columnNode lib param))
    else .error "InvalidDecoratorException"

/-- `contains_duplicates`, recursive.py:671-686. -/
def containsDuplicates : List Name → Bool
  | [] => false
  | n :: ns => ns.contains n || containsDuplicates ns

/-- What `prune_nodes` looks at in a node, recursive.py:605-636. -/
def toTNode (n : Node T V) : TNode := { name := n.name, params := n.inputTypes.keys, nonFinal := false, data := 0, body := 0 }

/-- `prune_nodes` of the generated nodes, recursive.py:839; the names are different here (recursive.py:831), so a node is
determined by its name.  `initial` is the order of the set of selected nodes (`Verif.InitialStack`). -/
def pruneGenerated (nodes : List (Node T V)) (select : Option (List Name)) (initial : List TNode) :
    Except UserErr (List (Node T V)) :=
  match pruneNodes (nodes.map toTNode) select initial (nodes.map toTNode).length with
  | some (.nodes ns) => .ok (ns.filterMap (fun m => nodes.find? (fun n => n.name == m.name)))
  | _ => .error "ValueError"

/-- `columns_to_append`, h_pandas.py:213-215; a missing argument is a `KeyError` (`none`). -/
def columnsToAppend (kw : Dict Name V) (select : List Name) : Option (Dict Name V) :=
  select.foldl (fun acc c => match acc, kw.get? c with
    | some d, some v => some (Dict.set d c v)
    | _, _ => none) (some [])

/-- The node `_append`, h_pandas.py:211-226.  The callable reads `self.select` when it runs; nothing changes it once it is
set. -/
def appendNode (lib : FrameLib T V) (param : Name) (select : List Name) : Node T V :=
  { name := "_append", typ := lib.dfT, kind := .standard,
    inputTypes := (select.foldl (fun d c => Dict.set d c (lib.colT, DepType.required)) []).set param (lib.dfT, .required),
    dependencies := [], dependedOnBy := [],
    fn := fun kw => match kw.get? param with
      | none => .error "KeyError"
      | some df =>
        match columnsToAppend kw select with
        | none => .error "KeyError"
        | some cols => lib.assign df cols }

/-- The `self.select` of h_pandas.py:204-209 after the first build: what the user gave, or the names of the nodes whose type
is the type of a column. -/
def chosenColumns [DecidableEq T] (lib : FrameLib T V) (select : Option (List Name)) (pruned : List (Node T V)) : List Name :=
  match select with
  | some s => s
  | none => (pruned.filter (fun n => n.typ = lib.colT)).map (·.name)

/-- The arguments of `subdag.add_namespace(output_nodes, namespace)`, recursive.py:850. -/
def nsSpec (ns : Name) : SubdagSpec V := { namespaceName := ns, finalName := ns, inputs := [], config := [], externalInputs := [] }

/-- `inject_nodes`, recursive.py:819-851: the injected nodes, the parameter, the node that replaces it, and the decorator
afterwards (`self.select` is assigned).  `subs` are the nodes of `load_from`. -/
def withColumnsInject [DecidableEq T] (lib : FrameLib T V) (d : WithColumns) (fnName : Name) (sig params : List Name)
    (subs : List (Node T V)) (initial : List TNode) : Except UserErr (List (Node T V) × Name × Name × WithColumns) :=
  let ns := d.ns.getD fnName
  match initialNodes lib d sig params with
  | .error e => .error e
  | .ok (param, columns) =>
    let generated := columns ++ subs
    if containsDuplicates (generated.map (·.name)) then .error "ValueError"
    else
      match pruneGenerated generated d.select initial with
      | .error e => .error e
      | .ok pruned =>
        if pruned.length = 0 then .error "ValueError"
        else
          let select := chosenColumns lib d.select pruned
          .ok (addNamespace (pruned ++ [appendNode lib param select]) (nsSpec ns), param, assignNamespace "_append" ns,
            { d with select := some select })

/-- `NodeInjector.transform_dag` of the decorator, base.py:259-281; `nodes` are the nodes of the decorated function. -/
def withColumnsNodes [DecidableEq T] (lib : FrameLib T V) (d : WithColumns) (fnName : Name) (sig : List Name)
    (nodes subs : List (Node T V)) (initial : List TNode) : Except UserErr (List (Node T V) × WithColumns) :=
  match withColumnsInject lib d fnName sig (injectableParams nodes) subs initial with
  | .error e => .error e
  | .ok (injected, param, last, d') =>
    .ok (nodes.map (fun n => if n.inputTypes.has param then reassignInputs [(param, last)] [] n else n) ++ injected, d')

end Verif
