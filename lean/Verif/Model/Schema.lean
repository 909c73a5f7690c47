import Verif.Dict
import Verif.Model.Exec

/-!
Schemas of dataframes and `SchemaValidator` (`hamilton/plugins/h_schema.py`).
-/
namespace Verif

/-- A field of a schema of pyarrow. The text of the type stands for the type (h_schema.py:228). -/
structure SField where
  name : String
  typ : String
  nullable : Bool
  metadata : Dict String String
  deriving DecidableEq

/-- A schema of pyarrow; texts instead of bytes for the metadata. -/
structure PaSchema where
  fields : List SField
  metadata : Dict String String
  deriving DecidableEq

/-- `==` for dictionaries: the order does not matter. -/
def sameDict (c r : Dict String String) : Bool :=
  c.all (fun p => r.get? p.1 == some p.2) && r.all (fun p => c.get? p.1 == some p.2)

/-- `Field.equals`. -/
def SField.equals (checkMetadata : Bool) (c r : SField) : Bool :=
  c.name == r.name && c.typ == r.typ && c.nullable == r.nullable && (!checkMetadata || sameDict c.metadata r.metadata)

/-- The fields, one after the other. -/
def fieldsEqual (checkMetadata : Bool) : List SField → List SField → Bool
  | [], [] => true
  | c :: cs, r :: rs => c.equals checkMetadata r && fieldsEqual checkMetadata cs rs
  | _, _ => false

/-- `pyarrow.Schema.equals`, as used in h_schema.py:109-112. -/
def PaSchema.equals (checkMetadata : Bool) (c r : PaSchema) : Bool :=
  fieldsEqual checkMetadata c.fields r.fields && (!checkMetadata || sameDict c.metadata r.metadata)

/-- The values in the JSON form of a field: texts, booleans and metadata. -/
inductive JV where
  | str (s : String)
  | bool (b : Bool)
  | obj (m : Dict String String)
  deriving DecidableEq

/-- `==` for these. -/
def JV.eq : JV → JV → Bool
  | .str a, .str b => a == b
  | .bool a, .bool b => a == b
  | .obj a, .obj b => sameDict a b
  | _, _ => false

/-- Python's truth value of these. -/
def JV.truthy : JV → Bool
  | .str s => s ≠ ""
  | .bool b => b
  | .obj m => !m.isEmpty

/-- `==` for dictionaries of these. -/
def sameJson (c r : Dict String JV) : Bool :=
  c.all (fun p => (r.get? p.1).any (fun w => p.2.eq w)) && r.all (fun p => (c.get? p.1).any (fun w => w.eq p.2))

/-- The JSON form of a field, h_schema.py:226-231. -/
def SField.json (f : SField) : Dict String JV :=
  [("name", .str f.name), ("type", .str f.typ), ("nullable", .bool f.nullable), ("metadata", .obj f.metadata)]

/-- The loop of `pyarrow_schema_to_json`, h_schema.py:220-231: a name that is there twice is not found by `schema.field`. -/
def jsonFields (s : PaSchema) : List SField → Dict String (Dict String JV) → Except UserErr (Dict String (Dict String JV))
  | [], acc => .ok acc
  | f :: fs, acc =>
    if (s.fields.filter (fun g => g.name = f.name)).length = 1 then jsonFields s fs (acc.set f.name f.json)
    else .error "KeyError"

/-- `pyarrow_schema_to_json`, h_schema.py:205-231. -/
def PaSchema.json (s : PaSchema) : Except UserErr (Dict String (Dict String JV)) :=
  jsonFields s s.fields (if s.metadata.isEmpty then [] else [("__metadata", s.metadata.map (fun p => (p.1, .str p.2)))])

/-- `DiffResult` of two mappings, h_schema.py:19-32. -/
inductive DiffOf (W : Type) where
  | added (w : W)
  | removed (w : W)
  | equal (w : W)
  | unequal (cur ref : W)
  deriving DecidableEq

/-- `_diff_mappings`, h_schema.py:35-68; the order of sets is not specified, here it is the order of the mappings. -/
def diffMappings {W : Type} (eq : W → W → Bool) (cur ref : Dict String W) : Dict String (DiffOf W) :=
  (cur.filter (fun p => !ref.has p.1)).map (fun p => (p.1, .added p.2)) ++
  (ref.filter (fun p => !cur.has p.1)).map (fun p => (p.1, .removed p.2)) ++
  cur.filterMap (fun p => (ref.get? p.1).map (fun r => (p.1, if eq p.2 r then .equal p.2 else .unequal p.2 r)))

/-- What is reported for an attribute of a field: a difference of values, or a difference of metadata by keys. -/
inductive AttrDiff where
  | plain (d : DiffOf JV)
  | byKey (d : Dict String (DiffOf String))
  deriving DecidableEq

/-- What is reported for a field (or for the metadata of the schema). -/
inductive FieldDiff where
  | added (f : Dict String JV)
  | removed (f : Dict String JV)
  | equal (f : Dict String JV)
  | unequal (attrs : Dict String AttrDiff)
  deriving DecidableEq

/-- `diff_result.diff == Diff.EQUAL`. -/
def DiffOf.isEqual {W : Type} : DiffOf W → Bool
  | .equal _ => true
  | _ => false

/-- The metadata of a field in its JSON form. -/
def JV.asObj : Option JV → Except UserErr (Dict String String)
  | none => .ok []
  | some (.obj m) => .ok m
  | some _ => .error "AttributeError"

/-- The body of the loop over the fields, h_schema.py:120-143. -/
def refine (checkField : Bool) : DiffOf (Dict String JV) → Except UserErr FieldDiff
  | .added f => .ok (.added f)
  | .removed f => .ok (.removed f)
  | .equal f => .ok (.equal f)
  | .unequal c r =>
    let d := diffMappings JV.eq c r
    let plain := d.map (fun p => (p.1, AttrDiff.plain p.2))
    if checkField then
      match d.get? "metadata" with
      | none => .error "KeyError"
      | some m =>
        if m.isEqual then .ok (.unequal plain)
        else
          match JV.asObj (c.get? "metadata"), JV.asObj (r.get? "metadata") with
          | .ok cm, .ok rm => .ok (.unequal (Dict.set plain "metadata" (.byKey (diffMappings (· == ·) cm rm))))
          | _, _ => .error "AttributeError"
    else .ok (.unequal plain)

/-- The loop over the fields, h_schema.py:119-143. -/
def refineAll (checkField : Bool) : Dict String (DiffOf (Dict String JV)) → Except UserErr (Dict String FieldDiff)
  | [] => .ok []
  | (k, d) :: rest =>
    match refine checkField d with
    | .error e => .error e
    | .ok f =>
      match refineAll checkField rest with
      | .error e => .error e
      | .ok fs => .ok ((k, f) :: fs)

/-- `diff_schemas`, h_schema.py:75-154. -/
def diffSchemas (checkSchema checkField : Bool) (cur ref : PaSchema) : Except UserErr (Dict String FieldDiff) :=
  if cur.equals (checkSchema || checkField) ref then .ok []
  else
    match cur.json, ref.json with
    | .ok c, .ok r =>
      match refineAll checkField (diffMappings sameJson c r) with
      | .error e => .error e
      | .ok out =>
        if checkSchema then
          .ok (out.set "__metadata" (.unequal ((diffMappings JV.eq ((c.get? "__metadata").getD []) ((r.get? "__metadata").getD [])).map
            (fun p => (p.1, .plain p.2)))))
        else .ok out
    | .error e, _ => .error e
    | _, .error e => .error e

/-- What a person reads: a sign, the two values, or the same for attributes. -/
inductive Readable where
  | sign (s : String)
  | values (cur ref : JV)
  | attrs (l : List (String × Readable))

/-- `human_readable_diff` of differences of values, h_schema.py:157-203. A key `__metadata` and a current value that is false are
looked into, which raises. -/
def readableKeys {W : Type} (toJ : W → JV) : Dict String (DiffOf W) → Except UserErr (List (String × Readable))
  | [] => .ok []
  | (k, d) :: rest =>
    if k = "__metadata" then .error "AttributeError"
    else
      match d with
      | .equal _ => readableKeys toJ rest
      | .added _ =>
        match readableKeys toJ rest with
        | .error e => .error e
        | .ok l => .ok ((k, .sign "+") :: l)
      | .removed _ =>
        match readableKeys toJ rest with
        | .error e => .error e
        | .ok l => .ok ((k, .sign "-") :: l)
      | .unequal c r =>
        if (toJ c).truthy then
          match readableKeys toJ rest with
          | .error e => .error e
          | .ok l => .ok ((k, .values (toJ c) (toJ r)) :: l)
        else .error "AttributeError"

/-- The same for the attributes of a field. Metadata with a key `cur` are taken for a pair of values, which cannot be written as
JSON by the caller (h_schema.py:198-199, 468). -/
def readableAttrs : Dict String AttrDiff → Except UserErr (List (String × Readable))
  | [] => .ok []
  | (k, .plain d) :: rest =>
    match readableKeys id [(k, d)] with
    | .error e => .error e
    | .ok l =>
      match readableAttrs rest with
      | .error e => .error e
      | .ok l' => .ok (l ++ l')
  | (k, .byKey d) :: rest =>
    if d.has "cur" then .error "TypeError"
    else
      match readableKeys JV.str d with
      | .error e => .error e
      | .ok l =>
        match readableAttrs rest with
        | .error e => .error e
        | .ok l' => .ok ((k, .attrs l) :: l')

/-- `human_readable_diff` of a difference of schemas, h_schema.py:157-203 (without sorting). The entry of the metadata is looked into
whatever it is: unless it is a difference, its values are texts, and the call raises. -/
def humanReadable : Dict String FieldDiff → Except UserErr (List (String × Readable))
  | [] => .ok []
  | (k, d) :: rest =>
    match humanReadable rest with
    | .error e => .error e
    | .ok l =>
      if k = "__metadata" then
        match d with
        | .unequal attrs =>
          match readableAttrs attrs with
          | .error e => .error e
          | .ok [] => .ok l
          | .ok r => .ok ((k, .attrs r) :: l)
        | _ => .error "AttributeError"
      else
        match d with
        | .equal _ => .ok l
        | .added _ => .ok ((k, .sign "+") :: l)
        | .removed _ => .ok ((k, .sign "-") :: l)
        | .unequal attrs =>
          match readableAttrs attrs with
          | .error e => .error e
          | .ok r => .ok ((k, .attrs r) :: l)

/-- The arguments of `SchemaValidator`, h_schema.py:366-399; `fail` is `importance="fail"`. -/
structure SchemaCfg where
  check : Bool
  mustExist : Bool
  fail : Bool
  checkSchema : Bool
  checkField : Bool

/-- The files of schemas (writing and reading them back is exact) and the warnings that were logged. -/
structure SchemaState where
  files : Dict String PaSchema
  warnings : List (Name × List (String × Readable))

/-- `Path.with_suffix`: what follows the last dot of a name is replaced, unless the dot is at the start or at the end. -/
def withSuffix (name suffix : List Char) : List Char :=
  let r := name.reverse
  let ext := r.takeWhile (fun c => c ≠ '.')
  match r.dropWhile (fun c => c ≠ '.') with
  | [] => name ++ suffix
  | _ :: before => if ext.isEmpty || before.isEmpty then name ++ suffix else before.reverse ++ suffix

/-- `get_schema_path`, h_schema.py:408-415, below the directory. -/
def schemaPath (name : Name) : String := String.ofList (withSuffix name.toList ".schema".toList)

/-- A node of the graph whose value has been computed: with the schema of the value, if it is a dataframe. -/
structure SchemaResult where
  name : Name
  documentation : String
  version : String
  schema : Option (List SField)

/-- `get_dataframe_schema`, h_schema.py:341-351. -/
def SchemaResult.full (n : SchemaResult) (fields : List SField) : PaSchema :=
  { fields := fields, metadata := [("name", n.name), ("documentation", n.documentation), ("version", n.version)] }

/-- `run_after_node_execution`, h_schema.py:429-470; inputs and overrides come first (420-431). -/
def afterNode (cfg : SchemaCfg) (st : SchemaState) (n : SchemaResult) : Except UserErr SchemaState :=
  match n.schema with
  | none => .ok st
  | some fields =>
    if !cfg.check then .ok { st with files := st.files.set (schemaPath n.name) (n.full fields) }
    else
      match st.files.get? (schemaPath n.name) with
      | none =>
        if cfg.mustExist then .error "FileNotFoundError"
        else .ok { st with files := st.files.set (schemaPath n.name) (n.full fields) }
      | some ref =>
        match diffSchemas cfg.checkSchema cfg.checkField (n.full fields) ref with
        | .error e => .error e
        | .ok [] => .ok st
        | .ok d =>
          match humanReadable d with
          | .error e => .error e
          | .ok r => if cfg.fail then .error "RuntimeError" else .ok { st with warnings := st.warnings ++ [(n.name, r)] }

/-- A run: the nodes in the order in which their values become known. -/
def schemaRun (cfg : SchemaCfg) : List SchemaResult → SchemaState → Except UserErr SchemaState
  | [], st => .ok st
  | n :: ns, st =>
    match afterNode cfg st n with
    | .error e => .error e
    | .ok st' => schemaRun cfg ns st'

end Verif
