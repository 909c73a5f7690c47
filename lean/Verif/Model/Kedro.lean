import Verif.Model.Decorators
import Verif.Model.Materialize
import Verif.Model.Pipe

/-!
Conversion of Kedro pipelines into a driver, hamilton/plugins/h_kedro.py.  Kedro itself is not part of the repository; of a Kedro
node the code uses `func`, `inputs` (the list of the names fed to the parameters, in their order) and `outputs` (the list of the
names of the produced datasets).
-/
namespace Verif.Kedro
variable {T V : Type}

/-- What the return annotation of a function is, as far as the conversion looks at it (h_kedro.py:24-31): the class `tuple` (or
`typing.Tuple`), the class `dict` (or `typing.Dict`), one of them with type arguments, another class, or none at all. -/
inductive Ann where
  | tuple
  | dict
  | subscripted
  | other
  | missing
  deriving DecidableEq, Repr

/-- A Python function: its identity, `__name__`, return annotation, parameters, and what it computes. Every parameter is annotated and
may be passed by keyword (otherwise `Node.__init__`, node.py:108-111, or the call fails). -/
structure KFn (T V : Type) where
  id : Nat
  name : Name
  ann : Ann
  outT : T
  params : Dict Name (T × DepType)
  fn : Dict Name V → Except UserErr V

/-- An input of a Kedro node: a dataset, or a parameter of the configuration (the string `params:x`). -/
inductive KInput where
  | dataset (d : Name)
  | param (p : Name)
  deriving DecidableEq, Repr

/-- How the outputs of a Kedro node are declared: not at all, by one name, by a list of names, or by a dictionary from the keys
of the returned dictionary to names. -/
inductive KOutputs where
  | none
  | one (d : Name)
  | list (ds : List Name)
  | dict (ds : Dict Name Name)
  deriving DecidableEq, Repr

/-- A Kedro node. -/
structure KNode (T V : Type) where
  func : KFn T V
  inputs : List KInput
  outputs : KOutputs

/-- `node.outputs` of Kedro, read at h_kedro.py:41-44: always a list of names. -/
def outputNames : KOutputs → List Name
  | .none => []
  | .one d => [d]
  | .list ds => ds
  | .dict ds => ds.map (·.2)

/-- The name of the base node, h_kedro.py:47-52. -/
def baseName (k : KNode T V) : Name :=
  match outputNames k.outputs with
  | [d] => d
  | _ => k.func.name

/-- What a driver name is made of an input, h_kedro.py:79-81. -/
def inputName : KInput → Name
  | .dataset d => d
  | .param p => p

/-- The parameters and names of `zip(params, node.inputs)`, h_kedro.py:77-83. -/
def newParams : List Name → List KInput → Dict Name Name
  | p :: ps, i :: is => (p, inputName i) :: newParams ps is
  | _, _ => []

/-- `{out: v for out, v in zip(outputs, node_result)}`, h_kedro.py:21. -/
def zipDict (outputs : List Name) (vs : List V) : Dict Name V :=
  (outputs.zip vs).foldl (fun d p => d.set p.1 p.2) []

/-- `_convert_output_from_tuple_to_dict` applied by `Node.transform_output`, h_kedro.py:20-21, node.py:382-398.  `iter`: the
elements of a value that can be iterated over. -/
def tupleToDict (ops : PyOps V) (iter : V → Option (List V)) (outputs : List Name) (fn : Dict Name V → Except UserErr V)
    (kw : Dict Name V) : Except UserErr V :=
  match fn kw with
  | .error e => .error e
  | .ok v =>
    match iter v with
    | none => .error "TypeError"
    | some l => .ok (ops.mkDict (zipDict outputs l))

/-- `expand_k_node`, h_kedro.py:13-31.  `converted`: the functions whose annotation was replaced by `Dict` at line 28 before. -/
def expandKNode (ops : PyOps V) (iter : V → Option (List V)) (anyT dictT : T) (converted : List Nat) (f : KFn T V)
    (base : Node T V) (outputs : List Name) : Except UserErr (List (Node T V) × List Nat) :=
  let fields : Dict Name T := outputs.foldl (fun d o => d.set o anyT) []
  let ann := if converted.contains f.id then .dict else f.ann
  match ann with
  | .missing => .error "KeyError"
  | .subscripted => .error "TypeError"
  | .other => .error "InvalidDecoratorException"
  | .dict => .ok (extractFields ops dictT fields none base, converted)
  | .tuple =>
    .ok (extractFields ops dictT fields none { base with typ := dictT, fn := tupleToDict ops iter outputs base.fn },
      f.id :: converted)

/-- The base node, h_kedro.py:54-67, with the check of `Node.__init__`, node.py:71-72. -/
def baseNode (k : KNode T V) : Except UserErr (Node T V) :=
  if k.func.ann = .missing then .error "ValueError"
  else .ok { name := baseName k, typ := k.func.outT, kind := .standard, inputTypes := k.func.params, dependencies := [],
             dependedOnBy := [], fn := k.func.fn }

/-- `k_node_to_h_nodes`, h_kedro.py:34-85.  A function whose annotation was replaced is no longer without one. -/
def kNodeToHNodes (ops : PyOps V) (iter : V → Option (List V)) (anyT dictT : T) (converted : List Nat) (k : KNode T V) :
    Except UserErr (List (Node T V) × List Nat) :=
  match baseNode k with
  | .error e => .error e
  | .ok base =>
    let names := outputNames k.outputs
    let renamed := newParams k.func.params.keys k.inputs
    if names.length > 1 then
      match expandKNode ops iter anyT dictT converted k.func base names with
      | .error e => .error e
      | .ok r => .ok (r.1.map (reassignInputs renamed []), r.2)
    else .ok ([reassignInputs renamed [] base], converted)

/-- The nodes of all pipelines, h_kedro.py:112-115. -/
def pipelineNodes (ops : PyOps V) (iter : V → Option (List V)) (anyT dictT : T) :
    List Nat → List (KNode T V) → Except UserErr (List (Node T V) × List Nat)
  | converted, [] => .ok ([], converted)
  | converted, k :: ks =>
    match kNodeToHNodes ops iter anyT dictT converted k with
    | .error e => .error e
    | .ok r =>
      match pipelineNodes ops iter anyT dictT r.2 ks with
      | .error e => .error e
      | .ok r' => .ok (r.1 ++ r'.1, r'.2)

/-- Errors of the conversion. -/
inductive KedroErr where
  | convert (e : UserErr)
  | build (e : BuildErr)
  deriving DecidableEq, Repr

/-- `kedro_pipeline_to_driver`, h_kedro.py:90-134: the graph of the driver and the functions whose annotation is replaced
afterwards.  The config is empty (line 127); hooks of the builder's adapters are left out. -/
def kedroToDriver (ops : PyOps V) (iter : V → Option (List V)) (anyT dictT : T) (tm : T → T → Bool) (converted : List Nat)
    (nodes : List (KNode T V)) : Except KedroErr (FnGraph T V × List Nat) :=
  match pipelineNodes ops iter anyT dictT converted nodes with
  | .error e => .error (.convert e)
  | .ok r =>
    match updateDependencies tm true (insertNodes [] r.1) with
    | .error e => .error (.build e)
    | .ok g => .ok (⟨g, []⟩, r.2)

end Verif.Kedro
