import Verif.Proofs.AdapterOptions
import Verif.Spec.AdapterOptions

/-! The tables of the adapters, checked statement by statement against the rules. -/

namespace Verif.Options

/-! ### What the tables say -/

/-- The rule that the statements touching an option amount to. -/
def readRule (default : Option (Option Val)) (k : Name) : List Stmt → Option Rule
  | [] => some .never
  | [.set [.notNone f] _ g] =>
    if g = k then
      if f = k then some .unlessNone else if f = "compression" then some .withCompression else none
    else none
  | [.set [.notNone f] _ g, .set [.notNone f'] _ g'] =>
    if g = k ∧ f = k ∧ g' = k ∧ f' = k then some .unlessNone else none
  | [.set [.notFalse f] _ g] => if g = k ∧ f = k then some .unlessFalse else none
  | [.set [.pandas2, .notNone f] _ g] => if g = k ∧ f = k then some .newPandas else none
  | [.set [.pandas1, .notNone f] _ g] => if g = k ∧ f = k then some .oldPandas else none
  | [.set [.notNone f, .equals v 117] _ g] =>
    if g = k ∧ f = k ∧ v = "version" then some .version117 else none
  | [.asdict] => some .always
  | [.asdict, .delIfNone _] => some .unlessNone
  | [.changed _] =>
    match default with
    | some none => some .always
    | some (some .none) => some .unlessNone
    | _ => none
  | _ => none

/-- Whether the text of an adapter passes the option `k` by its rule, exactly once. -/
def optionOk (a : Adapter) (k : Name) : Bool :=
  let named := a.calls.map fun c => c.named? k
  let lets := a.calls.map fun c => c.pick.lets k
  if named.all Option.isNone then
    (lets.filter id).length == 1 &&
      readRule ((a.fields.find? fun f => f.1 == k).map (·.2)) k (a.body.filter (Stmt.touches a.fields k))
        == some (ruleOf a.name k)
  else named == [some k] && lets == [false] && ruleOf a.name k == .always

/-- Whether only declared names are used as keywords. -/
def keywordsOk (a : Adapter) : Bool :=
  a.body.all fun t =>
    match t with
    | .set _ key _ => (a.fields.map (·.1)).contains key
    | _ => true

/-- Whether the location is passed by the first call. -/
def locationOk (a : Adapter) : Bool :=
  match a.calls with
  | [] => false
  | c :: _ =>
    if a.name = "dlt_extensions.DltDestinationSaver" then true
    else if locationKeywords a.name = [] then
      c.positional == (if a.name = "pandas_extensions.PandasPickleReader" then ["filepath_or_buffer"]
        else locationsOf a) && c.named.isEmpty
    else c.positional.isEmpty &&
      (locationKeywords a.name).map (fun kw => c.named? kw) == (locationsOf a).map some

/-- Whether the statements of an adapter are of the kinds that the lemmas treat, and cannot fail. -/
def bodyOk (a : Adapter) : Bool :=
  a.body.all Stmt.simple &&
    (a.body.all Stmt.safe ||
      match a.body with
      | .asdict :: rest =>
        let keys := rest.filterMap Stmt.removes
        copying.contains a.name && rest.map Stmt.removes == keys.map some && decide keys.Nodup &&
          keys.all (fun k => (a.fields.map (·.1)).contains k)
      | _ => false) &&
    a.calls.all (fun c => c.named.all fun p => (a.body.filter (Stmt.touches a.fields p.1)).isEmpty)

/-- Whether `__post_init__` leaves the options alone. -/
def postOk (a : Adapter) (k : Name) : Bool :=
  match a.post with
  | .nothing => true
  | .oneOf x _ => !(x == k)

/-- Whether the defaults are plain. -/
def defaultsOk (a : Adapter) : Bool := a.fields.all fun f => (f.2.getD .none).plain

theorem table_options : (adapters.all fun a => (optionsOf a).all fun k => optionOk a k) = true := by
  decide +kernel

theorem table_keywords : (adapters.all fun a => keywordsOk a) = true := by decide +kernel

theorem table_bodies : (adapters.all fun a => bodyOk a) = true := by decide +kernel

theorem table_fields :
    (allAdapters.all fun a => decide (a.fields.map (·.1)).Nodup && defaultsOk a) = true := by
  decide +kernel

theorem table_post :
    (allAdapters.all fun a => postOk a "version" && postOk a "compression" &&
      (optionsOf a).all fun k => postOk a k) = true := by
  decide +kernel

theorem table_locations : (allAdapters.all fun a => locationOk a) = true := by decide +kernel

/-- Whether an adapter that copies its options has no `__post_init__`. -/
def copyPostOk (a : Adapter) : Bool :=
  match a.post with
  | .nothing => true
  | .oneOf _ _ => !copying.contains a.name

theorem table_copying : (allAdapters.all fun a => copyPostOk a) = true := by decide +kernel

/-- Whether only locations and declared options are passed by name. -/
def namedOk (a : Adapter) : Bool :=
  a.calls.all fun c => c.named.all fun p =>
    (locationKeywords a.name).contains p.1 || (a.fields.map (·.1)).contains p.1

theorem table_named : (allAdapters.all fun a => namedOk a) = true := by decide +kernel

/-- Whether the metadata is about the first field. -/
def metadataOk (a : Adapter) : Bool :=
  match a.metadata with
  | .file f => (a.fields.map (·.1)).head? == some f && !sqlNames.contains a.name && !otherNames.contains a.name
  | .sql f => (a.fields.map (·.1)).head? == some f && sqlNames.contains a.name && !otherNames.contains a.name
  | .other => otherNames.contains a.name

theorem table_metadata : (allAdapters.all fun a => metadataOk a) = true := by decide +kernel

/-- Whether `__post_init__` does nothing, except for one adapter. -/
def plainPost (a : Adapter) : Bool :=
  match a.post with
  | .nothing => true
  | .oneOf _ _ => a.name == "pandas_extensions.PandasPickleReader"

theorem table_plainPost : (allAdapters.all fun a => plainPost a) = true := by decide +kernel

/-- Whether `__post_init__` sets a declared field only. -/
def oneOfOk (a : Adapter) : Bool :=
  match a.post with
  | .nothing => true
  | .oneOf x _ => (a.fields.map (·.1)).contains x

theorem table_oneOf : (allAdapters.all fun a => oneOfOk a) = true := by decide +kernel

theorem table_functions : (allAdapters.all fun a =>
    Dict.get? functionsOf a.name == some (a.calls.map (·.function))) = true := by decide +kernel

/-- Whether a location is passed only once: not under its own name as well. -/
def onceOk (a : Adapter) (k : Name) : Bool :=
  (locationKeywords a.name).contains k ||
    (a.calls.all (fun c => (c.named? k).isNone) &&
      match a.body.filter (Stmt.touches a.fields k) with
      | [] => true
      | [.asdict, .del key] => key == k
      | _ => false)

theorem table_once : (adapters.all fun a => (locationsOf a).all fun k => onceOk a k) = true := by
  decide +kernel

theorem mem_all {a : Adapter} (h : a ∈ adapters) : a ∈ allAdapters := (List.mem_filter.mp h).1

end Verif.Options
