import Verif.Model.Decorators
import Verif.Model.Build
import Verif.Model.Driver

/-!
Materializers (`to.<x>`) and extractors (`from_.<x>`): `hamilton/io/materialization.py:94-262, 439-483`,
`hamilton/function_modifiers/adapters.py:27-129, 169-266, 506-581` and `Driver.materialize`, `hamilton/driver.py:1463-1694`.
-/
namespace Verif
variable {T V : Type}

/-- `resolve_kwargs`, adapters.py:82-97: argument name ↦ source name. -/
def kwargSources (kwargs : Dict Name (SingleDep V)) : Dict Name Name :=
  kwargs.filterMap (fun p => match p.2 with
    | .source s => some (p.1, s)
    | .value _ => none)

/-- `resolve_kwargs`, adapters.py:82-97: argument name ↦ literal. -/
def kwargLiterals (kwargs : Dict Name (SingleDep V)) : Dict Name V :=
  kwargs.filterMap (fun p => match p.2 with
    | .source _ => none
    | .value v => some (p.1, v))

/-- `dependencies_inverted = {v: k for k, v in dependencies.items()}`, adapters.py:186 and 531. -/
def invertSources (sources : Dict Name Name) : Dict Name Name := sources.foldl (fun d p => d.set p.2 p.1) []

/-- One optional argument of `input_types.update(…)`, adapters.py:210-216 and 556-562. -/
def addOptional (sources : Dict Name Name) (d : Dict Name (T × DepType)) (p : Name × T) : Dict Name (T × DepType) :=
  match sources.get? p.1 with
  | some s => d.set s (p.2, .optional)
  | none => d

/-- `input_types` of a loader or saver node before the data is added, adapters.py:203-221 and 549-567. -/
def adapterInputTypes (required optional : Dict Name T) (kwargs : Dict Name (SingleDep V)) : Dict Name (T × DepType) :=
  let sources := kwargSources kwargs
  let fromRequired := required.foldl (fun (d : Dict Name (T × DepType)) p =>
    d.set ((sources.get? p.1).getD p.1) (p.2, .required)) []
  (optional.foldl (addOptional sources) fromRequired).filter (fun p => !(kwargLiterals kwargs).has p.1)

/-- The keyword arguments given to the adapter's constructor, adapters.py:196-199 and 540-543.  Simplification: sources named
like the callable's own parameters (`__loader_factory`, …) are not modelled. -/
def adapterKwargs (kwargs : Dict Name (SingleDep V)) (kw : Dict Name V) : Dict Name V :=
  let inverted := invertSources (kwargSources kwargs)
  (kwargLiterals kwargs).merge (kw.foldl (fun d p => d.set ((inverted.get? p.1).getD p.1) p.2) [])

/-- `AdapterFactory.validate`, adapters.py:46-69. -/
def adapterValid (required optional : Dict Name T) (kwargs : Dict Name (SingleDep V)) : Bool :=
  required.keys.all (fun k => kwargs.has k) && kwargs.keys.all (fun k => required.has k || optional.has k)

/-- A data saver class: its constructor arguments (io/data_adapters.py) and, in one step, constructing it with keyword
arguments and saving a value, which returns metadata. -/
structure SaverCls (T V : Type) where
  required : Dict Name T
  optional : Dict Name T
  save : Dict Name V → V → Except UserErr V

/-- A data loader class: loading gives the value and metadata. -/
structure LoaderCls (T V : Type) where
  required : Dict Name T
  optional : Dict Name T
  load : Dict Name V → Except UserErr (V × V)

/-- A result builder given as `combine=`. -/
structure ResultBuilder (T V : Type) where
  outputType : T
  build : Dict Name V → Except UserErr V

/-- `MaterializerFactory`, materialization.py:156-184; `saver` is `resolve_adapter_class` (adapters.py:100-129) on the classes
registered for the format. -/
structure Materializer (T V : Type) where
  id : Name
  saver : T → Option (SaverCls T V)
  combine : Option (ResultBuilder T V)
  dependencies : List Name
  kwargs : Dict Name (SingleDep V)

/-- `ExtractorFactory`, materialization.py:117-134. -/
structure Extractor (T V : Type) where
  target : Name
  loader : T → Option (LoaderCls T V)
  kwargs : Dict Name (SingleDep V)

/-- What the nodes need to know about values and types: the pair a loader node returns and its first component (adapters.py:201,
245-246), the types of metadata and of the pair. -/
structure AdapterOps (T V : Type) where
  pair : V → V → V
  first : V → Option V
  dictT : T
  pairT : T → T

/-- The first component of a pair is what it was made of. -/
structure AdapterOps.Lawful (ops : AdapterOps T V) : Prop where
  first : ∀ a b, ops.first (ops.pair a b) = some a

/-- Errors: materialization.py:212-215, 235-240, 147-152; adapters.py:46-69 and 176-179, 522-527; graph construction. -/
inductive MatErr where
  | missing (id : Name) (names : List Name)
  | needsBuilder (id : Name)
  | noTarget (n : Name)
  | noAdapter (n : Name)
  | badArguments (n : Name)
  | build (e : BuildErr)
  deriving DecidableEq, Repr

/-- The join node, materialization.py:243-252. -/
def joinNode (id : Name) (rb : ResultBuilder T V) (deps : List (Node T V)) : Node T V :=
  { name := id ++ "_build_result", typ := rb.outputType, kind := .standard,
    inputTypes := deps.foldl (fun (d : Dict Name (T × DepType)) n => d.set n.name (n.typ, .required)) [],
    dependencies := [], dependedOnBy := [], fn := rb.build }

/-- `save_data`, adapters.py:533-547; the data is the value of the node called `saved`. -/
def saveData (cls : SaverCls T V) (kwargs : Dict Name (SingleDep V)) (saved : Name) (kw : Dict Name V) : Except UserErr V :=
  let all := adapterKwargs kwargs kw
  match all.get? saved with
  | none => .error "KeyError"
  | some data => cls.save (all.del saved) data

/-- The saver node, adapters.py:549-581. -/
def saverNode (ops : AdapterOps T V) (id : Name) (cls : SaverCls T V) (kwargs : Dict Name (SingleDep V)) (saved : Node T V) :
    Node T V :=
  { name := id, typ := ops.dictT, kind := .standard,
    inputTypes := (adapterInputTypes cls.required cls.optional kwargs).set saved.name (saved.typ, .required),
    dependencies := [], dependedOnBy := [], fn := saveData cls kwargs saved.name }

/-- `create_saver_node`, adapters.py:506-581. -/
def createSaver (ops : AdapterOps T V) (m : Materializer T V) (saved : Node T V) : Except MatErr (Node T V) :=
  match m.saver saved.typ with
  | none => .error (.noAdapter m.id)
  | some cls =>
    if adapterValid cls.required cls.optional m.kwargs then .ok (saverNode ops m.id cls m.kwargs saved)
    else .error (.badArguments m.id)

/-- `MaterializerFactory.generate_nodes`, materialization.py:204-262 (with `_resolve_dependencies`). -/
def materializerNodes (ops : AdapterOps T V) (g : Graph T V) (m : Materializer T V) : Except MatErr (List (Node T V)) :=
  let missing := m.dependencies.filter (fun d => !g.has d)
  if missing ≠ [] then .error (.missing m.id missing)
  else
    let deps := m.dependencies.filterMap g.get?
    match m.combine with
    | none =>
      match deps with
      | [d] => match createSaver ops m d with
        | .error e => .error e
        | .ok s => .ok [s]
      | _ => .error (.needsBuilder m.id)
    | some rb =>
      match createSaver ops m (joinNode m.id rb deps) with
      | .error e => .error e
      | .ok s => .ok [joinNode m.id rb deps, s]

/-- The name of the node that loads, adapters.py:224-238 (namespace `load_data`). -/
def loadName (target : Name) : Name := "load_data." ++ target

/-- The loader node, adapters.py:180-238. -/
def loaderNode (ops : AdapterOps T V) (target : Name) (typ : T) (cls : LoaderCls T V) (kwargs : Dict Name (SingleDep V)) :
    Node T V :=
  { name := loadName target, typ := ops.pairT typ, kind := .standard,
    inputTypes := adapterInputTypes cls.required cls.optional kwargs, dependencies := [], dependedOnBy := [],
    fn := fun kw => match cls.load (adapterKwargs kwargs kw) with
      | .error e => .error e
      | .ok (v, info) => .ok (ops.pair v info) }

/-- The filter node, adapters.py:240-265. -/
def filterNode (ops : AdapterOps T V) (target : Name) (typ : T) : Node T V :=
  { name := target, typ := typ, kind := .standard,
    inputTypes := [(loadName target, (ops.pairT typ, .required))], dependencies := [], dependedOnBy := [],
    fn := fun kw => match kw.get? (loadName target) with
      | none => .error "KeyError"
      | some p => match ops.first p with
        | none => .error "TypeError"
        | some v => .ok v }

/-- `ExtractorFactory.generate_nodes`, materialization.py:136-153, with `get_loader_nodes`, adapters.py:169-266. -/
def extractorNodes (ops : AdapterOps T V) (g : Graph T V) (x : Extractor T V) : Except MatErr (List (Node T V)) :=
  match g.get? x.target with
  | none => .error (.noTarget x.target)
  | some n =>
    match x.loader n.typ with
    | none => .error (.noAdapter x.target)
    | some cls =>
      if adapterValid cls.required cls.optional x.kwargs then
        .ok [loaderNode ops x.target n.typ cls x.kwargs, filterNode ops x.target n.typ]
      else .error (.badArguments x.target)

/-- `for x in xs: nodes.extend(x.generate_nodes(…))`, materialization.py:458-460 and 468-469. -/
def generateAll {A : Type} (f : A → Except MatErr (List (Node T V))) : List A → Except MatErr (List (Node T V))
  | [] => .ok []
  | a :: as =>
    match f a with
    | .error e => .error e
    | .ok ns => match generateAll f as with
      | .error e => .error e
      | .ok rest => .ok (ns ++ rest)

/-- `graph_nodes[node.name] = node` for each node, materialization.py:461 (a comprehension) and 470-472. -/
def insertNodes (g : Graph T V) (ns : List (Node T V)) : Graph T V := ns.foldl (fun d n => d.set n.name n) g

/-- `modify_graph`, materialization.py:439-483. -/
def modifyGraph (ops : AdapterOps T V) (tm : T → T → Bool) (g : Graph T V) (ms : List (Materializer T V))
    (xs : List (Extractor T V)) : Except MatErr (Graph T V) :=
  match generateAll (materializerNodes ops g) ms with
  | .error e => .error e
  | .ok savers =>
    match withNodes tm g (insertNodes [] savers) with
    | .error e => .error (.build e)
    | .ok g1 =>
      match generateAll (extractorNodes ops g1) xs with
      | .error e => .error e
      | .ok loaders =>
        match updateDependencies tm true (insertNodes g1 loaders) with
        | .error e => .error (.build e)
        | .ok g2 => .ok g2

/-- Errors of `Driver.materialize`. `nothing`: driver.py:1648-1651. -/
inductive MaterializeErr where
  | nothing
  | graph (e : MatErr)
  | driver (e : DriverErr)
  deriving DecidableEq, Repr

/-- `Driver.materialize`, driver.py:1633-1694, without adapters.  Validation is done twice in the code (lines 1679-1682 and in
`__raw_execute`) with the same arguments; the model does it once.  The result: metadata of the materializers and the additional
variables. -/
def driverMaterialize (ops : AdapterOps T V) (tm : T → T → Bool) (o : TypeOracle T V) (fg : FnGraph T V)
    (ms : List (Materializer T V)) (xs : List (Extractor T V)) (finalVars : List Name) (inputs overrides : Option (Dict Name V)) :
    Except MaterializeErr (Dict Name (Option V) × Dict Name (Option V)) :=
  if ms.length = 0 ∧ finalVars.length = 0 then .error .nothing
  else
    match modifyGraph ops tm fg.nodes ms xs with
    | .error e => .error (.graph e)
    | .ok g' =>
      match driverExecute o ⟨g', fg.config⟩ (finalVars ++ ms.map (·.id)) inputs overrides with
      | .error e => .error (.driver e)
      | .ok out =>
        let pick := fun (keys : List Name) => keys.foldl (fun (d : Dict Name (Option V)) k => d.set k ((out.get? k).getD none)) []
        .ok (pick (ms.map (·.id)), pick finalVars)

end Verif
