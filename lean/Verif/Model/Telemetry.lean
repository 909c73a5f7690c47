import Verif.Dict
import Verif.Model.Node

/-!
Usage telemetry (C76): hamilton/telemetry.py and its callers in hamilton/driver.py, hamilton/async_driver.py,
hamilton/dataflows/__init__.py, hamilton/contrib/__init__.py and hamilton/cli/__main__.py.

An event counts as sent when it is handed to the sending thread (telemetry.py:404-406); whether the network delivers it makes no
difference to the process (`_send_event_json`, telemetry.py:372-394, catches everything).  Not modelled: the properties that are the
same in every event of a process (telemetry.py:151-159), the run id and the duration; `%` in values of the configuration file or of the
environment variable (interpolation of `configparser`).
-/
namespace Verif.Telemetry
open Verif

/-! ### Whether telemetry is on -/

/-- `ConfigParser.getboolean` for one value: `None` stands for its `ValueError`. Used in telemetry.py:95 and 105. -/
def parseFlag (s : String) : Option Bool :=
  if s.toLower ∈ ["1", "yes", "true", "on"] then some true
  else if s.toLower ∈ ["0", "no", "false", "off"] then some false
  else none

/-- The configuration file as `configparser` sees it: not there, not readable (for example without section header), or with a section
`DEFAULT` (keys in lower case; other sections are left out). -/
inductive ConfFile where
  | absent
  | malformed (text : String)
  | readable (default : Dict String String)
  deriving DecidableEq, Repr

/-- `_load_config`, telemetry.py:59-82: the section `DEFAULT`, and the file afterwards. `fresh` is the new anonymous id (line 76),
`writable` whether writing succeeds (lines 77-81). -/
def loadConfig (file : ConfFile) (fresh : String) (writable : Bool) : Dict String String × ConfFile :=
  let conf := match file with
    | .readable d => d
    | _ => []
  if conf.has "anonymous_id" then (conf, file)
  else
    let conf := conf.set "anonymous_id" fresh
    (conf, if writable then .readable conf else file)

/-- One of the two looks at a setting, telemetry.py:93-100 (configuration file) and 101-110 (environment): the value if it is there and
can be parsed, else what was known before. -/
def lookAt (before : Bool) (setting : Option String) : Bool :=
  match setting with
  | some s => match parseFlag s with
    | some b => b
    | none => before
  | none => before

/-- `_check_config_and_environ_for_telemetry_flag`, telemetry.py:85-111. `env` is the value of `HAMILTON_TELEMETRY_ENABLED`. -/
def flagOf (dflt : Bool) (conf : Dict String String) (env : Option String) : Bool :=
  lookAt (lookAt dflt (conf.get? "telemetry_enabled")) env

/-! ### What is sent -/

/-- A frame of a traceback: components of the file name, line, function. -/
structure Frame where
  path : List String
  line : Nat
  fn : String
  deriving DecidableEq, Repr

/-- The last `n` elements (`l[-n:]`). -/
def lastN {α : Type} (n : Nat) (l : List α) : List α := l.drop (l.length - n)

/-- One line of the sanitized error, telemetry.py:424-435. -/
def frameLine (f : Frame) : String :=
  let p := lastN 4 f.path
  if "hamilton" ∈ p then
    "..." ++ String.intercalate "/" (p.dropWhile (fun c => c != "hamilton")) ++ ", line " ++ toString f.line ++ ", in " ++ f.fn ++ "\n"
  else "...<USER_CODE>...\n"

/-- `sanitize_error`, telemetry.py:413-441: the last five frames (`limit=-5`). The message of the exception is not used. -/
def sanitizeError (tb : List Frame) : String := String.join ((lastN 5 tb).map frameLine)

/-- A class: its module and its name. -/
structure Cls where
  module : String
  name : String
  deriving DecidableEq, Repr

/-- `get_adapter_name`, telemetry.py:458-471. -/
def adapterName (c : Cls) : String :=
  if "hamilton.".toList.isPrefixOf c.module.toList then c.module ++ "." ++ c.name else "custom_adapter"

/-- `track_decorator_usage`, function_modifiers/base.py:43-62: the count after one more use. -/
def countDecorator (d : Dict String Nat) (c : Cls) : Dict String Nat :=
  let key := if "hamilton.function_modifiers".toList.isPrefixOf c.module.toList then c.name else "custom_decorator"
  d.set key ((d.get? key).getD 0 + 1)

/-- The counts after these uses. -/
def countDecorators (uses : List Cls) : Dict String Nat := uses.foldl countDecorator []

/-- Result builders that are told apart, `get_result_builder_name`, telemetry.py:474-502. -/
inductive BuilderKind where
  | strictIndex | pandas | dict | numpy | custom (cls : Cls) | noBuilder
  deriving DecidableEq, Repr

/-- `get_result_builder_name`, telemetry.py:474-502. -/
def builderName : BuilderKind → String
  | .strictIndex => "hamilton.base.StrictIndexTypePandasDataFrameResult"
  | .pandas => "hamilton.base.PandasDataFrameResult"
  | .dict => "hamilton.base.DictResult"
  | .numpy => "hamilton.base.NumpyMatrixResult"
  | .custom _ => "custom_builder"
  | .noBuilder => "no_result_builder"

/-- The events, telemetry.py:162-340 and 505-537 (without what is the same for all events of the process). -/
inductive Event where
  | start (nodes modules configItems : Nat) (decorators : Dict String Nat) (adapters : List String) (builder : String)
      (error : Option String) (executor : String)
  | finish (success : Bool) (outputs overrides inputs : Nat) (error : Option String)
  | driverFunction (fn : String)
  | dataflowFunction (fn : String)
  | dataflowUse (official : Bool) (user : Option String) (dataflow version : String)
  | command (name : String)
  deriving DecidableEq, Repr

/-! ### The state of the process -/

/-- `g_telemetry_enabled`, `call_counter` (telemetry.py:114-117) and the events handed to the sending thread, oldest first. -/
structure TState where
  enabled : Bool
  counter : Nat
  sent : List Event
  deriving DecidableEq, Repr

/-- Import of the module, telemetry.py:114-117. -/
def TState.start (file : ConfFile) (fresh : String) (writable : Bool) (env : Option String) : TState :=
  ⟨flagOf true (loadConfig file fresh writable).1 env, 0, []⟩

/-- `is_telemetry_enabled`, telemetry.py:126-147 (`MAX_COUNT_SESSION = 10`, line 54). -/
def isEnabled (s : TState) : Bool × TState :=
  if s.enabled then
    (decide (s.counter + 1 ≤ 10), { s with counter := s.counter + 1 })
  else (false, s)

/-- `send_event_json`, telemetry.py:397-410. -/
def sendEvent (e : Event) (s : TState) : Except UserErr TState :=
  if s.enabled then .ok { s with sent := s.sent ++ [e] } else .error "RuntimeError: Won't send; tracking is disabled!"

/-- The pattern of the driver (driver.py:77-86, 498-520, 686-701): `if is_telemetry_enabled(): try: ... send ... except Exception: pass`.
`none`: making the event raised. -/
def trySend (e : Option Event) (s : TState) : TState :=
  match isEnabled s with
  | (true, s') => match e with
    | some e => match sendEvent e s' with
      | .ok s'' => s''
      | .error _ => s'
    | none => s'
  | (false, s') => s'

/-! ### The calls -/

/-- What the constructor of a driver is given and what came of it. `graph` is the number of nodes and the executor, if the graph
could be built (driver.py:437-461). -/
structure Construction (V : Type) where
  modules : List String
  config : Dict Name V
  adapters : List Cls
  builder : BuilderKind
  decorators : List Cls
  graph : Option (List Name × String)
  traceback : Option (List Frame)

/-- `capture_constructor_telemetry`, driver.py:481-520: without executor the event cannot be made (line 514). -/
def constructEvent {V : Type} (c : Construction V) : Option Event :=
  match c.graph with
  | some (nodes, executor) =>
    some (.start nodes.length c.modules.length c.config.length (countDecorators c.decorators) (c.adapters.map adapterName)
      (builderName c.builder) (c.traceback.map sanitizeError) executor)
  | none => none

/-- What `execute` (or `materialize`) is given and what came of it: the traceback of its exception. -/
structure Execution (V : Type) where
  finalVars : List Name
  inputs : Option (Dict Name V)
  overrides : Option (Dict Name V)
  traceback : Option (List Frame)

/-- `capture_execute_telemetry`, driver.py:664-701. The number of inputs depends on the overrides (line 693): without overrides it is
0, with overrides and without inputs `len(None)` raises. -/
def executeEvent {V : Type} (c : Execution V) : Option Event :=
  match c.overrides, c.inputs with
  | none, _ => some (.finish c.traceback.isNone c.finalVars.length 0 0 (c.traceback.map sanitizeError))
  | some o, some i => some (.finish c.traceback.isNone c.finalVars.length o.length i.length (c.traceback.map sanitizeError))
  | some _, none => none

/-- Something done in the process. -/
inductive Op (V : Type) where
  /-- `disable_telemetry()`, telemetry.py:120-123 -/
  | disable
  /-- construction of a driver, driver.py:434-469 -/
  | construct (c : Construction V)
  /-- `execute`, driver.py:584-652 -/
  | execute (c : Execution V)
  /-- another method of the driver, driver.py:61-88 -/
  | method (fn : String)
  /-- construction of an asynchronous driver, async_driver.py:393-432 -/
  | asyncConstruct (c : Construction V)
  /-- `execute` of an asynchronous driver, async_driver.py:371-391 -/
  | asyncExecute (c : Execution V)
  /-- a function of `hamilton.dataflows`, dataflows/__init__.py:46-59 -/
  | dataflow (fn : String)
  /-- import of a dataflow of the contrib package, contrib/__init__.py:14-24, telemetry.py:324-369 -/
  | contrib (official : Bool) (user : Option String) (dataflow version : String)
  /-- a command of the command line, cli/__main__.py:111-112 -/
  | command (name : String)

/-- The event of an asynchronous driver: the flag is looked at twice (async_driver.py:379 or 409, and driver.py:686).
Simplification: nothing else happens in between (the second look is in a task or another thread). -/
def trySendTwice (e : Option Event) (s : TState) : TState :=
  match isEnabled s with
  | (true, s') => trySend e s'
  | (false, s') => s'

/-- What the operation does, given what it would return without telemetry (`body`, where an exception is a value too).
Driver: the events are sent in a `finally` and never raise.  Dataflows: the event is sent first, outside of any `try`
(dataflows/__init__.py:55-57).  Contrib: at the end of the import (contrib/__init__.py:19-24; telemetry.py:369 is outside of the `try`).
Command line: inside of an `if` (cli/__main__.py:111). -/
def perform {V R : Type} (op : Op V) (body : Except UserErr R) (s : TState) : Except UserErr R × TState :=
  match op with
  | .disable => (body, { s with enabled := false })
  | .construct c => (body, trySend (constructEvent c) s)
  | .execute c => (body, trySend (executeEvent c) s)
  | .method fn => (body, trySend (some (.driverFunction fn)) s)
  | .asyncConstruct c => (body, trySendTwice (constructEvent c) s)
  | .asyncExecute c => (body, trySendTwice (executeEvent c) s)
  | .dataflow fn => match sendEvent (.dataflowFunction fn) s with
    | .ok s' => (body, s')
    | .error e => (.error e, s)
  | .contrib official user dataflow version => match body with
    | .ok r => match sendEvent (.dataflowUse official user dataflow version) s with
      | .ok s' => (.ok r, s')
      | .error e => (.error e, s)
    | .error e => (.error e, s)
  | .command name => match isEnabled s with
    | (true, s') => match sendEvent (.command name) s' with
      | .ok s'' => (body, s'')
      | .error e => (.error e, s')
    | (false, s') => (body, s')

/-- The state after a sequence of operations. -/
def performAll {V R : Type} (ops : List (Op V × Except UserErr R)) (s : TState) : TState :=
  ops.foldl (fun s p => (perform p.1 p.2 s).2) s

end Verif.Telemetry
