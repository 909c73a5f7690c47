import Verif.Model.Spark
import Verif.Model.WithColumns
import Verif.Model.Topo

/-!
`@with_columns` and `@select` for PySpark (C80): hamilton/plugins/h_spark.py:526-617 and 907-1311, with
`with_columns_base.inject_nodes`, hamilton/function_modifiers/recursive.py:819-851.

Modelled for functions that become UDFs. Not modelled: functions that take a dataframe (`@require_columns`,
h_spark.py:689-905) and `pass_dataframe_as`; without them `_prep_nodes` (h_spark.py:1016-1034) returns its argument and
`_validate_dataframe_subdag_parameter` (h_spark.py:1086-1116) passes, `base_df_dependency_param` (h_spark.py:606) is `None`.
-/
namespace Verif.Spark
open Verif
variable {T V : Type}

/-- The decorator's state, recursive.py:739-777 and h_spark.py:1014: `columns_to_pass`, `select`, `namespace` and whether `mode`
is `"select"` (`@select`, h_spark.py:1302-1310). `load_from` is represented by the nodes collected from it (C38, C40), an argument
of the functions below. -/
structure SparkColumns where
  columns : Option (List Name)
  select : Option (List Name)
  ns : Option Name
  selectMode : Bool
  deriving DecidableEq, Repr

/-- `df.drop(*columns)` (used in h_spark.py:1075). -/
def Frame.drop (f : Frame V) (ks : List Name) : Frame V :=
  ⟨f.columns.filter (fun k => !ks.contains k), f.rows.map (fun r => r.filter (fun p => !ks.contains p.1))⟩

/-- `new_callable` of `sparkify_node_with_udf`, h_spark.py:560-584. Simplification: a dataframe among the remaining arguments is
an exception (`lit`-like binding of a dataframe into a UDF fails when it is pickled). -/
def udfCallable (o : Kinds T) (n : Node T (SVal V)) (linear base : Name) (inGroup fromDf : List Name)
    (kw : Dict Name (SVal V)) : Except UserErr (SVal V) :=
  match kw.get? linear with
  | none => .error "KeyError"
  | some (.scalar _) => .error "AttributeError"
  | some (.frame df) =>
    match gather SVal.value? (kw.filter (fun p =>
      !fromDf.contains p.1 && (!inGroup.contains p.1 && (p.1 != linear && p.1 != base)))) with
    | none => .error "TypeError"
    | some rest => (lambdaUdf o df n rest).map .frame

/-- `new_input_types`, h_spark.py:588-616. -/
def udfInputs (dfT : T) (types : Dict Name (T × DepType)) (linear base : Name) (inGroup fromDf : List Name) :
    Dict Name (T × DepType) :=
  let own : Dict Name (T × DepType) := types.filter (fun p => !fromDf.contains p.1)
  let all := inGroup.foldl (fun d k => Dict.set d k (dfT, DepType.required)) (own.set linear (dfT, .required))
  if fromDf.isEmpty then all else all.set base (dfT, .required)

/-- `sparkify_node_with_udf`, h_spark.py:526-617. -/
def sparkifyUdf (o : Kinds T) (dfT : T) (n : Node T (SVal V)) (linear base : Name) (inGroup fromDf : List Name) :
    Node T (SVal V) :=
  { n with typ := dfT, inputTypes := udfInputs dfT n.inputTypes linear base inGroup fromDf,
           fn := udfCallable o n linear base inGroup fromDf }

/-- The loop of `chain_subdag_nodes`, h_spark.py:1157-1197 (without the drop list): the new nodes, and the node that holds the
dataframe after them. `produced` are the names of the group, `passed` is `columns_to_pass`. -/
def chainUdfs (o : Kinds T) (dfT : T) (base : Name) (produced passed : List Name) :
    List (Node T (SVal V)) → Name → List (Node T (SVal V)) × Name
  | [], cur => ([], cur)
  | n :: r, cur =>
    let rest := chainUdfs o dfT base produced passed r n.name
    (sparkifyUdf o dfT n cur base (n.inputTypes.keys.filter produced.contains) (n.inputTypes.keys.filter passed.contains) ::
      rest.1, rest.2)

/-- The drop list, h_spark.py:1188-1192. -/
def dropList (select : Option (List Name)) (names : List Name) : List Name :=
  match select with
  | none => []
  | some s => names.filter (fun k => !s.contains k)

/-- `create_selector_node`, h_spark.py:1035-1056. `select` raises if there is no such column. -/
def selectorNode (dfT : T) (up : Name) (columns : List Name) : Node T (SVal V) :=
  { name := "_select", typ := dfT, kind := .standard, inputTypes := [(up, (dfT, .required))], dependencies := [],
    dependedOnBy := [],
    fn := fun kw => match kw.get? up with
      | none => .error "KeyError"
      | some (.scalar _) => .error "AttributeError"
      | some (.frame f) =>
        if columns.all f.columns.contains then .ok (.frame (f.select columns)) else .error "AnalysisException" }

/-- `create_drop_node`, h_spark.py:1058-1079. -/
def dropNode (dfT : T) (up : Name) (columns : List Name) : Node T (SVal V) :=
  { name := "_select", typ := dfT, kind := .standard, inputTypes := [(up, (dfT, .required))], dependencies := [],
    dependedOnBy := [],
    fn := fun kw => match kw.get? up with
      | none => .error "KeyError"
      | some (.scalar _) => .error "AttributeError"
      | some (.frame f) => .ok (.frame (f.drop columns)) }

/-- `chain_subdag_nodes` after the sorting, h_spark.py:1146-1219. -/
def chainSubdag (o : Kinds T) (dfT : T) (d : SparkColumns) (param : Name) (sorted : List (Node T (SVal V))) :
    List (Node T (SVal V)) × Name :=
  let names := sorted.map (·.name)
  let chain := chainUdfs o dfT param names (d.columns.getD []) sorted param
  if d.selectMode then (chain.1 ++ [selectorNode dfT chain.2 (d.select.getD names)], "_select")
  else if (dropList d.select names).isEmpty then chain
  else (chain.1 ++ [dropNode dfT chain.2 (dropList d.select names)], "_select")

/-- `inject_nodes`, recursive.py:819-851, with `get_initial_nodes`, h_spark.py:1118-1130 (there are no initial nodes), and
`_derive_first_dataframe_parameter_from_fn`, h_spark.py:664-687 (`sig`: the parameters of the decorated function and whether they
are dataframes): the injected nodes, the parameter and the node that replaces it. -/
def sparkInject (o : Kinds T) (dfT : T) (d : SparkColumns) (fnName : Name) (sig : List (Name × Bool)) (params : List Name)
    (subs : List (Node T (SVal V))) (initial : List TNode) : Except UserErr (List (Node T (SVal V)) × Name × Name) :=
  let ns := d.ns.getD fnName
  match sig with
  | [] => .error "ValueError"
  | (_, false) :: _ => .error "ValueError"
  | (param, true) :: _ =>
    if !params.contains param then .error "InvalidDecoratorException"
    else if containsDuplicates (subs.map (·.name)) then .error "ValueError"
    else
      match pruneGenerated subs d.select initial with
      | .error e => .error e
      | .ok pruned =>
        if pruned.length = 0 then .error "ValueError"
        else
          match topologicallySortNodes pruned with
          | none => .error "unreachable"
          | some sorted =>
            let chain := chainSubdag o dfT d param sorted
            .ok (addNamespace chain.1 (nsSpec ns), param, assignNamespace chain.2 ns)

/-- `NodeInjector.transform_dag` of the decorator, base.py:259-281; `nodes` are the nodes of the decorated function. -/
def sparkColumnsNodes (o : Kinds T) (dfT : T) (d : SparkColumns) (fnName : Name) (sig : List (Name × Bool))
    (nodes subs : List (Node T (SVal V))) (initial : List TNode) : Except UserErr (List (Node T (SVal V))) :=
  match sparkInject o dfT d fnName sig (injectableParams nodes) subs initial with
  | .error e => .error e
  | .ok (injected, param, last) =>
    .ok (nodes.map (fun n => if n.inputTypes.has param then reassignInputs [(param, last)] [] n else n) ++ injected)

end Verif.Spark
