import Verif.Model.Node
import Verif.Dict

/-!
`hamilton/registry.py`: loading the extensions for data frame libraries, the switches for it, and the types that extensions register.
The configuration file is its section `DEFAULT`; what `configparser` does with comments and the case of names is left out.
-/
namespace Verif.Autoload

/-- `HAMILTON_AUTOLOAD_ENV`, registry.py:38. -/
def key : String := "HAMILTON_AUTOLOAD_EXTENSIONS"

/-- `register_types`, registry.py:152-166: the data frame type and, if the extension has one, the column type. -/
structure TypeMap where
  df : String
  col : Option String
  deriving DecidableEq, Repr

/-- What importing an extension leads to, registry.py:64-83 and 95-102: it registers types, or none; it cannot be imported
(`NotImplementedError`, `ModuleNotFoundError`, `ImportError`); or something else is raised, also by the assertions. -/
inductive Import where
  | works (types : Option TypeMap)
  | missing
  | broken (e : String)
  deriving DecidableEq, Repr

/-- A Python process: the environment variable, the extensions imported so far, what is registered, and `INITIALIZED`
(registry.py:13, 38, 44). -/
structure Proc where
  env : Option String
  loaded : List Name
  types : Dict Name TypeMap
  initialized : Bool
  deriving DecidableEq, Repr

/-- `load_autoload_config`, registry.py:50-58: the value in the file goes to the environment. -/
def readEnv (file : Dict String String) (env : Option String) : Option String :=
  match file.get? key with
  | some v => some v
  | none => env

/-- A new process in which `hamilton.registry` is imported, registry.py:61. -/
def start (file : Dict String String) (env : Option String) : Proc := ⟨readEnv file env, [], [], false⟩

/-- `register_types`, registry.py:152-166. -/
def register (n : Name) (t : TypeMap) (types : Dict Name TypeMap) : Dict Name TypeMap := types.set n t

/-- `load_extension`, registry.py:64-83: the module registers its types when it is imported for the first time. -/
def loadExtension (world : Name → Import) (n : Name) (p : Proc) : Except String Proc :=
  if n ∈ p.loaded then .ok p
  else
    match world n with
    | .works none => .ok { p with loaded := p.loaded ++ [n] }
    | .works (some t) => .ok { p with loaded := p.loaded ++ [n], types := register n t p.types }
    | .missing => .error "ImportError"
    | .broken e => .error e

/-- The loop of `initialize`, registry.py:89-102; the state where something else was raised is kept. -/
def initLoop (world : Name → Import) : List Name → Proc → Option String × Proc
  | [], p => (none, p)
  | n :: rest, p =>
    if p.env = some "0" then initLoop world rest p
    else
      match loadExtension world n p with
      | .ok p => initLoop world rest p
      | .error e => if e = "ImportError" then initLoop world rest p else (some e, p)

/-- `initialize`, registry.py:85-103. -/
def initialize' (world : Name → Import) (exts : List Name) (p : Proc) : Option String × Proc :=
  match initLoop world exts p with
  | (some e, p) => (some e, p)
  | (none, p) => (none, { p with initialized := true })

/-- `HAMILTON_EXTENSIONS`, registry.py:14-37. -/
def extensions : List Name :=
  ["yaml", "matplotlib", "numpy", "pandas", "plotly", "polars", "polars_lazyframe", "pyspark_pandas", "spark", "dask", "geopandas",
   "xgboost", "lightgbm", "sklearn_plot", "vaex", "ibis", "dlt", "kedro", "huggingface", "mlflow", "pydantic"]

/-- The configuration file and the running process. -/
structure Machine where
  file : Dict String String
  proc : Proc

/-- What users do: `disable_autoload`, `enable_autoload`, `config_enable_autoload`, `config_disable_autoload`, `load_extension`,
importing `hamilton.driver` (which imports function_modifiers/base.py:19-23), and starting a new process with the variable set, or
not, in its environment. -/
inductive Op where
  | disable
  | enable
  | configEnable
  | configDisable
  | load (n : Name)
  | importDriver
  | restart (env : Option String)
  deriving DecidableEq, Repr

/-- One action, and the exception it raises: registry.py:106-149, function_modifiers/base.py:19-23. -/
def step (world : Name → Import) (m : Machine) : Op → Option String × Machine
  | .disable => (none, { m with proc := { m.proc with env := some "0" } })
  | .enable =>
    match m.proc.env with
    | none => (some "KeyError", m)
    | some _ => (none, { m with proc := { m.proc with env := none } })
  | .configEnable => (none, ⟨m.file.del key, { m.proc with env := readEnv m.file m.proc.env }⟩)
  | .configDisable => (none, ⟨m.file.set key "0", { m.proc with env := readEnv m.file m.proc.env }⟩)
  | .load n =>
    match loadExtension world n m.proc with
    | .ok p => (none, { m with proc := p })
    | .error e => (some e, m)
  | .importDriver =>
    if m.proc.initialized then (none, m)
    else
      let q := initialize' world extensions m.proc
      (q.1, { m with proc := q.2 })
  | .restart env => (none, { m with proc := start m.file env })

/-- Actions one after another; exceptions are caught by the user (Python). -/
def run (world : Name → Import) (ops : List Op) (m : Machine) : Machine := ops.foldl (fun m op => (step world m op).2) m

/-! ### Types -/

/-- `get_column_type_from_df_type`, registry.py:193-206: the first extension with the type decides; without a column type that is a
`KeyError`. -/
def columnType (df : String) : Dict Name TypeMap → Except String String
  | [] => .error "NotImplementedError"
  | (_, t) :: rest =>
    if df = t.df then
      match t.col with
      | some c => .ok c
      | none => .error "KeyError"
    else columnType df rest

/-- `get_registered_dataframe_types`, registry.py:225-233. -/
def dataframeTypes (types : Dict Name TypeMap) : Dict Name String := types.map (fun p => (p.1, p.2.df))

/-- `get_registered_column_types`, registry.py:236-243. -/
def columnTypes : Dict Name TypeMap → Except String (Dict Name String)
  | [] => .ok []
  | (n, t) :: rest =>
    match t.col, columnTypes rest with
    | some c, .ok d => .ok ((n, c) :: d)
    | _, _ => .error "KeyError"

/-- `extract_columns.validate_return_type`, expanders.py:590-602. -/
def checkFrame (df : String) (types : Dict Name TypeMap) : Except String Unit :=
  match columnType df types with
  | .ok _ => .ok ()
  | .error e => if e = "NotImplementedError" then .error "InvalidDecoratorException" else .error e

end Verif.Autoload
