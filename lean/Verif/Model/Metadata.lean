import Verif.Model.Stack
import Verif.Model.Targets

/-!
Decorators that attach metadata to nodes (`hamilton/function_modifiers/metadata.py`): `@tag`, `@tag_outputs`, `@schema.output`,
`@ray_remote_options` and `@cache`; and how the Ray adapters read the options back (`hamilton/plugins/h_ray.py`).
-/
namespace Verif
variable {B J : Type}

/-- The values that can be given for a tag: a string, a list of strings, another list, a boolean, or something else (hashable or
not, with a truth value); metadata.py:68, 125-142. -/
inductive PyTag where
  | str (s : String)
  | strs (l : List String)
  | mixed
  | bool (b : Bool)
  | other (hashable truthy : Bool)
  deriving DecidableEq

/-- Python's truth value of a tag. -/
def PyTag.truthy : PyTag → Bool
  | .str s => s ≠ ""
  | .strs l => !l.isEmpty
  | .mixed => true
  | .bool b => b
  | .other _ t => t

/-- What these decorators look at in a node: its name, the names of its parameters, whether its type is a registered type of
dataframes (metadata.py:227-230), its tags; `body` is everything else (type, callable, documentation …). -/
structure MNode (B : Type) where
  name : Name
  params : List Name
  frame : Bool
  tags : Dict String PyTag
  body : B

/-- `hamilton.non_final_node`, base.py:363. -/
def nonFinalKey : String := "hamilton.non_final_node"

/-- The node as `select_nodes` sees it (base.py:418-466). -/
def MNode.toT (n : MNode B) : TNode :=
  { name := n.name, params := n.params, nonFinal := ((n.tags.get? nonFinalKey).map PyTag.truthy).getD false, data := 0, body := 0 }

/-- `key.split(".")`. -/
def splitDots : List Char → List (List Char)
  | [] => [[]]
  | c :: cs =>
    if c = '.' then [] :: splitDots cs
    else
      match splitDots cs with
      | [] => [[c]]
      | w :: ws => (c :: w) :: ws

/-- `RESERVED_TAG_NAMESPACES`, metadata.py:53-61. -/
def reservedNamespaces : List String := ["hamilton", "data_quality", "gdpr", "ccpa", "dag", "module", "ray_remote"]

/-- `_key_allowed`, metadata.py:98-118; `isIdent` is `str.isidentifier`. -/
def keyAllowed (isIdent : String → Bool) (bypass : Bool) (key : String) : Bool :=
  match (splitDots key.toList).map String.ofList with
  | [] => false
  | c :: cs => if !bypass && reservedNamespaces.contains c then false else (c :: cs).all isIdent

/-- `_value_allowed`, metadata.py:120-136. -/
def valueAllowed : PyTag → Bool
  | .str _ => true
  | .strs l => !l.isEmpty && decide l.Nodup
  | .mixed => false
  | .bool _ => false
  | .other _ _ => false

/-- The loop and the error of `tag.validate`, metadata.py:138-160. A bad value that cannot be hashed raises `TypeError` when it is
added to the set of bad tags; lists are turned into strings first. -/
def validateTags (isIdent : String → Bool) (bypass : Bool) : Dict String PyTag → Except UserErr Unit
  | [] => .ok ()
  | (k, v) :: rest =>
    if keyAllowed isIdent bypass k && valueAllowed v then validateTags isIdent bypass rest
    else
      match v with
      | .other false _ => .error "TypeError"
      | _ =>
        match validateTags isIdent bypass rest with
        | .error e => .error e
        | .ok () => .error "InvalidDecoratorException"

/-- The decorators: `@tag(target_, bypass_reserved_namespaces_, **tags)` (metadata.py:12-85), `@tag_outputs(**mapping)` (170-192),
`@schema.output(*fields, target_)` (211-282), `@ray_remote_options(**options)` (285-317) and `@cache(behavior, format, target_)`
(344-403). -/
inductive MetaDeco (J : Type) where
  | tag (target : Target) (bypass : Bool) (tags : Dict String PyTag)
  | tagOutputs (mapping : Dict Name (Dict String PyTag))
  | schemaOutput (target : Option Name) (fields : List (String × String))
  | rayRemote (options : Dict String J)
  | cache (target : Target) (behavior format : Option String)

/-- The targets: given (metadata.py:84, 234, 388), `...` (191), or `None` (285-293). -/
def MetaDeco.target : MetaDeco J → Target
  | .tag t _ _ => t
  | .tagOutputs _ => .all
  | .schemaOutput t _ => match t with | none => .sinks | some n => .name n
  | .rayRemote _ => .sinks
  | .cache t _ _ => t

/-- `f"ray_remote.{option}": json.dumps(value)`, metadata.py:291. -/
def rayTags (dumps : J → String) (options : Dict String J) : Dict String PyTag :=
  options.map (fun p => ("ray_remote." ++ p.1, .str (dumps p.2)))

/-- `",".join([f"{key}={value}" ...])`, metadata.py:215. -/
def schemaText (fields : List (String × String)) : String := ",".intercalate (fields.map (fun p => p.1 ++ "=" ++ p.2))

/-- `self.cache_tags`, metadata.py:392-398: empty values are left out. -/
def cacheTags (behavior format : Option String) : Dict String PyTag :=
  (match behavior with | none => [] | some b => if b = "" then [] else [("cache.behavior", .str b)]) ++
  (match format with | none => [] | some f => if f = "" then [] else [("cache.format", .str f)])

/-- `validate`: of `tag` (also for `RayRemote`), bypassed for the others (metadata.py:244-248, base.py:612). -/
def MetaDeco.validate (isIdent : String → Bool) (dumps : J → String) : MetaDeco J → Except UserErr Unit
  | .tag _ b tags => validateTags isIdent b tags
  | .rayRemote o => validateTags isIdent true (rayTags dumps o)
  | _ => .ok ()

/-- The names of the parameters of `tag.__init__`: keys of these names given to `tag(**new_tags)` are not tags. -/
def tagParams : List String := ["target_", "bypass_reserved_namespaces_"]

/-- The tags of `decorate_node`: metadata.py:91-99 (also for `SchemaOutput` and `RayRemote`), 194-200, 400-408. -/
def MetaDeco.newTags (dumps : J → String) (n : MNode B) : MetaDeco J → Dict String PyTag
  | .tag _ _ tags => n.tags.merge tags
  | .tagOutputs m =>
    match m.get? n.name with
    | none => n.tags
    | some t => n.tags.merge ((n.tags.merge t).filter (fun p => !tagParams.contains p.1))
  | .schemaOutput _ fields => n.tags.merge [("hamilton.internal.schema_output", .str (schemaText fields))]
  | .rayRemote o => n.tags.merge (rayTags dumps o)
  | .cache _ b f => n.tags.merge (cacheTags b f)

/-- `validate_node`, metadata.py:220-236 and base.py:581-589. -/
def MetaDeco.validNode (n : MNode B) : MetaDeco J → Bool
  | .schemaOutput _ _ => n.frame
  | _ => true

/-- `transform_dag` of a node decorator, base.py:482-516 and 591-602. Nodes of one function have distinct names, so that comparing
nodes (base.py:468-480) is comparing what `toT` keeps. -/
def MetaDeco.transformDag (dumps : J → String) (d : MetaDeco J) (nodes : List (MNode B)) : Except UserErr (List (MNode B)) :=
  match selectNodes d.target (nodes.map MNode.toT) with
  | .error _ => .error "InvalidDecoratorException"
  | .ok chosen =>
    let hit := nodes.filter (fun n => chosen.any (fun m => n.toT.pyEq m))
    if hit.all (fun n => d.validNode n) then
      .ok (nodes.filter (fun n => !chosen.any (fun m => n.toT.pyEq m)) ++
        hit.map (fun n => { n with tags := d.newTags dumps n }))
    else .error "InvalidDecoratorException"

/-- The decorator in a stack (`Model/Stack`): only `@schema.output` does not allow others below it (metadata.py:238-242). -/
def MetaDeco.toStatic (isIdent : String → Bool) (dumps : J → String) (d : MetaDeco J) : StaticDeco Unit (MNode B) Unit where
  kind := .decorate
  exclusive := match d with | .schemaOutput _ _ => true | _ => false
  valid := fun _ => match d.validate isIdent dumps with | .ok () => true | .error _ => false
  required := some []
  optional := []
  resolve := fun f _ => .ok (some f)
  generate := fun _ _ => .ok []
  transformDag := fun nodes _ _ => d.transformDag dumps nodes

/-- A function that becomes `nodes` (by the decorators of other kinds), decorated by a stack of these, the innermost first. -/
def withMetadata (isIdent : String → Bool) (dumps : J → String) (nodes : List (MNode B)) (stack : List (MetaDeco J)) :
    Except UserErr (List (MNode B)) :=
  decorated (fun _ => true) () [] (fun _ => .ok nodes) () (stack.map (fun d => .static (d.toStatic isIdent dumps)))

/-- `parse_ray_remote_options_from_tags`, h_ray.py:36-53; `loads` is `json.loads`, which raises on anything but a JSON text. -/
def rayOptions (loads : String → Option J) : Dict String PyTag → Except UserErr (Dict String J)
  | [] => .ok []
  | (k, v) :: rest =>
    if "ray_remote.".toList.isPrefixOf k.toList then
      match v with
      | .str s =>
        match loads s with
        | none => .error "JSONDecodeError"
        | some j =>
          match rayOptions loads rest with
          | .error e => .error e
          | .ok o => .ok ((String.ofList (k.toList.drop 11), j) :: o)
      | _ => .error "TypeError"
    else rayOptions loads rest

end Verif
