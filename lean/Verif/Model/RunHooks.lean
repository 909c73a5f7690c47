import Verif.Dict
import Verif.Model.Node

/-!
Run-level and construction-level lifecycle: the hooks `pre_do_anything`, `post_graph_construct`, `pre_graph_execute`,
`post_graph_execute`, `pre_task_execute`, `post_task_execute`, the validators `validate_node` and `validate_graph`, and the
calls that use them: `Driver.__init__`, `Driver.execute`, `Driver.raw_execute`, `Driver.materialize` (hamilton/driver.py),
`AsyncDriver.raw_execute`, `AsyncDriver.execute` (hamilton/async_driver.py) and `base_execute_task`
(hamilton/execution/executors.py). What a graph is (`G`), how it is built and what a run does are parameters: any
computation on the state `σ` of the world. Node-level hooks are in `Verif.Model.Hooks`. Telemetry and logging are left out.
-/
namespace Verif
variable {G V R σ : Type}

/-- What a call may raise. `raised`: an exception of user code (a function, a hook, a validator, the builder);
`validation`, `graphValidation`: driver.py:379-383, 395-399; `noMessage`: the `TypeError` of joining a message that is
`None`, driver.py:374, 397; `noOutput`: driver.py:1648-1651; `unbound`: the `UnboundLocalError` of `function_graph`,
driver.py:1706; `keyError`: driver.py:1692-1693. -/
inductive RunErr where
  | raised (e : UserErr)
  | validation (failed : List (Name × List String))
  | graphValidation (failed : List String)
  | noMessage
  | noOutput
  | unbound
  | keyError (n : Name)
  deriving DecidableEq, Repr

/-- Whether the exception derives from `Exception`; `p` says so for the exceptions of user code (`KeyboardInterrupt` and
`SystemExit` do not). -/
def RunErr.isException (p : UserErr → Bool) : RunErr → Bool
  | .raised e => p e
  | _ => true

/-- What a run-level call returns or a hook is told: the dict of outputs or what a result builder made of it. -/
inductive RunResult (V R : Type) where
  | dict (d : Dict Name V)
  | built (r : R)
  deriving DecidableEq, Repr

/-- What `pre_graph_execute` is told: driver.py:614-621, 1670-1677 (`inputs` and `overrides` are passed on unchanged and
left out). -/
structure RunCall (G : Type) where
  runId : String
  graph : G
  finalVars : List Name
  deriving DecidableEq, Repr

/-- What `post_graph_execute` is told besides the run id: driver.py:640-647. -/
structure RunReport (G V R : Type) where
  graph : G
  success : Bool
  error : Option RunErr
  results : Option (RunResult V R)
  deriving DecidableEq, Repr

/-- A hook without its arguments: it changes the world and may raise. -/
abbrev HookFn (σ : Type) := σ → Option UserErr × σ

/-- A validator without its arguments: `(is_valid, message)`, base.py:983, or an exception. -/
abbrev ValidatorFn (σ : Type) := σ → Except UserErr (Bool × Option String) × σ

/-- A lifecycle adapter: the identity of the object, the class of the objects it is equal to (`==`), and the hooks,
validators and methods it implements (base.py:787-846). -/
structure RunAdapter (G V R σ : Type) where
  id : Nat
  /-- objects with the same `eqKey` are `==`; by default an object is only equal to itself -/
  eqKey : Nat := id
  preDo : Option (HookFn σ) := none
  validateNode : Option (G → Name → ValidatorFn σ) := none
  validateGraph : Option (G → ValidatorFn σ) := none
  postConstruct : Option (G → HookFn σ) := none
  pre : Option (RunCall G → HookFn σ) := none
  post : Option (String → RunReport G V R → HookFn σ) := none
  preTask : Option (String → HookFn σ) := none
  postTask : Option (String → Bool → Option RunErr → Option (Dict Name V) → HookFn σ) := none
  build : Option (Dict Name V → σ → Except UserErr R × σ) := none

/-- What happens during a call, in order. -/
inductive RunEvent (G V R : Type) where
  | preDo (adapter : Nat) (raised : Option UserErr)
  | validateNode (adapter : Nat) (node : Name) (verdict : Option (Bool × Option String))
  | validateGraph (adapter : Nat) (verdict : Option (Bool × Option String))
  | postConstruct (adapter : Nat) (graph : G) (raised : Option UserErr)
  | pre (adapter : Nat) (call : RunCall G) (raised : Option UserErr)
  | post (adapter : Nat) (runId : String) (report : RunReport G V R) (raised : Option UserErr)
  | preTask (adapter : Nat) (task : String) (raised : Option UserErr)
  | postTask (adapter : Nat) (task : String) (success : Bool) (error : Option RunErr) (results : Option (Dict Name V))
      (raised : Option UserErr)
  | body (out : Except UserErr (Dict Name V))
  | build (adapter : Nat) (out : Except UserErr R)

/-- The world together with the history of calls. -/
structure RunState (G V R σ : Type) where
  log : List (RunEvent G V R)
  st : σ

/-- `_uniqify_adapters`, base.py:773-785: keep the first occurrence of each object. -/
def uniqueAdapters (seen : List Nat) : List (RunAdapter G V R σ) → List (RunAdapter G V R σ)
  | [] => []
  | a :: rest => if a.id ∈ seen then uniqueAdapters seen rest else a :: uniqueAdapters (a.id :: seen) rest

/-- `_get_lifecycle_hooks`, base.py:798-816, for one hook: the adapters whose class implements it, in order, except those
that are equal to an earlier one (`if adapter not in sync_hooks[sync_hook]`, base.py:807). -/
def registered (has : RunAdapter G V R σ → Bool) (seen : List Nat) : List (RunAdapter G V R σ) → List (RunAdapter G V R σ)
  | [] => []
  | a :: rest =>
    if has a && !(seen.contains a.eqKey) then a :: registered has (a.eqKey :: seen) rest else registered has seen rest

/-- `LifecycleAdapterSet.__init__`, base.py:763-771, and `_get_lifecycle_methods`, base.py:818-846, for `do_build_result`:
`none` is the `ValueError` of two adapters implementing it. -/
def runAdapterSet (adapters : List (RunAdapter G V R σ)) : Option (List (RunAdapter G V R σ)) :=
  if (uniqueAdapters [] adapters).countP (fun a => a.build.isSome) > 1 then none else some (uniqueAdapters [] adapters)

/-- `call_all_lifecycle_hooks_sync`, base.py:908-915: one hook after the other, an exception ends the loop. -/
def callRunHooks : List ((Option UserErr → RunEvent G V R) × HookFn σ) → RunState G V R σ → Option UserErr × RunState G V R σ
  | [], s => (none, s)
  | (ev, hook) :: rest, s =>
    match hook s.st with
    | (some e, t) => (some e, ⟨s.log ++ [ev (some e)], t⟩)
    | (none, t) => callRunHooks rest ⟨s.log ++ [ev none], t⟩

/-- The hooks of one kind of an adapter set, with their events: base.py:798-816 and 914-915. -/
def hooksOf (A : List (RunAdapter G V R σ)) (sel : RunAdapter G V R σ → Option (HookFn σ))
    (ev : RunAdapter G V R σ → Option UserErr → RunEvent G V R) : List ((Option UserErr → RunEvent G V R) × HookFn σ) :=
  (registered (fun a => (sel a).isSome) [] A).filterMap fun a => (sel a).map fun h => (ev a, h)

/-- `pre_graph_execute`, driver.py:613-621 and 1669-1677. -/
def callPre (A : List (RunAdapter G V R σ)) (c : RunCall G) : RunState G V R σ → Option UserErr × RunState G V R σ :=
  callRunHooks (hooksOf A (fun a => a.pre.map (fun h => h c)) (fun a => .pre a.id c))

/-- `post_graph_execute`, driver.py:639-647 and 1702-1710. -/
def callPost (A : List (RunAdapter G V R σ)) (runId : String) (r : RunReport G V R) :
    RunState G V R σ → Option UserErr × RunState G V R σ :=
  callRunHooks (hooksOf A (fun a => a.post.map (fun h => h runId r)) (fun a => .post a.id runId r))

/-- `pre_task_execute`, executors.py:103-111. -/
def callPreTask (A : List (RunAdapter G V R σ)) (task : String) : RunState G V R σ → Option UserErr × RunState G V R σ :=
  callRunHooks (hooksOf A (fun a => a.preTask.map (fun h => h task)) (fun a => .preTask a.id task))

/-- `post_task_execute`, executors.py:133-142. -/
def callPostTask (A : List (RunAdapter G V R σ)) (task : String) (success : Bool) (error : Option RunErr)
    (results : Option (Dict Name V)) : RunState G V R σ → Option UserErr × RunState G V R σ :=
  callRunHooks (hooksOf A (fun a => a.postTask.map (fun h => h task success error results))
    (fun a => .postTask a.id task success error results))

/-- `post_graph_construct`, driver.py:454-457 and 1656-1662. -/
def callPostConstruct (A : List (RunAdapter G V R σ)) (g : G) : RunState G V R σ → Option UserErr × RunState G V R σ :=
  callRunHooks (hooksOf A (fun a => a.postConstruct.map (fun h => h g)) (fun a => .postConstruct a.id g))

/-- `pre_do_anything`, driver.py:435-436. -/
def callPreDo (A : List (RunAdapter G V R σ)) : RunState G V R σ → Option UserErr × RunState G V R σ :=
  callRunHooks (hooksOf A (·.preDo) (fun a => .preDo a.id))

/-! ### Validators -/

/-- `call_all_validators_sync` with `output_only_failures=True`, base.py:972-986: the messages of the validators that
reject. -/
def callValidators : List ((Option (Bool × Option String) → RunEvent G V R) × ValidatorFn σ) → RunState G V R σ →
    Except UserErr (List (Option String)) × RunState G V R σ
  | [], s => (.ok [], s)
  | (ev, v) :: rest, s =>
    match v s.st with
    | (.error e, t) => (.error e, ⟨s.log ++ [ev none], t⟩)
    | (.ok (valid, msg), t) =>
      match callValidators rest ⟨s.log ++ [ev (some (valid, msg))], t⟩ with
      | (.error e, s') => (.error e, s')
      | (.ok ms, s') => (.ok (if valid then ms else msg :: ms), s')

/-- The validators of one kind with their events. `_get_lifecycle_validators`, base.py:787-796, collects the adapters in a
set: equal ones count once, and the order is that of the set; here it is the order of the adapters. -/
def validatorsOf (A : List (RunAdapter G V R σ)) (sel : RunAdapter G V R σ → Option (ValidatorFn σ))
    (ev : RunAdapter G V R σ → Option (Bool × Option String) → RunEvent G V R) : List ((Option (Bool × Option String) → RunEvent G V R) × ValidatorFn σ) :=
  (registered (fun a => (sel a).isSome) [] A).filterMap fun a => (sel a).map fun v => (ev a, v)

/-- The loop over the nodes, driver.py:357-369: the failures by node. -/
def validateNodes (A : List (RunAdapter G V R σ)) (g : G) : List Name → RunState G V R σ →
    Except UserErr (List (Name × List (Option String))) × RunState G V R σ
  | [], s => (.ok [], s)
  | n :: rest, s =>
    match callValidators (validatorsOf A (fun a => a.validateNode.map (fun v => v g n)) (fun a => .validateNode a.id n)) s with
    | (.error e, s') => (.error e, s')
    | (.ok ms, s') =>
      match validateNodes A g rest s' with
      | (.error e, s'') => (.error e, s'')
      | (.ok fs, s'') => (.ok (if ms.length > 0 then (n, ms) :: fs else fs), s'')

/-- `str.join` over messages that may be `None`, driver.py:374, 397: `none` is the `TypeError`. -/
def joinable : List (Option String) → Option (List String)
  | [] => some []
  | none :: _ => none
  | some m :: rest => (joinable rest).map (m :: ·)

/-- The messages of the nodes, driver.py:372-378. -/
def joinNodes : List (Name × List (Option String)) → Option (List (Name × List String))
  | [] => some []
  | (n, ms) :: rest =>
    match joinable ms, joinNodes rest with
    | some l, some r => some ((n, l) :: r)
    | _, _ => none

/-- The second half of `_perform_graph_validations`, driver.py:384-399. -/
def validateWholeGraph (A : List (RunAdapter G V R σ)) (g : G) (s : RunState G V R σ) :
    Option RunErr × RunState G V R σ :=
  match callValidators (validatorsOf A (fun a => a.validateGraph.map (fun v => v g)) (fun a => .validateGraph a.id)) s with
  | (.error e, s') => (some (.raised e), s')
  | (.ok [], s') => (none, s')
  | (.ok (m :: ms), s') =>
    match joinable (m :: ms) with
    | none => (some .noMessage, s')
    | some l => (some (.graphValidation l), s')

/-- `Driver._perform_graph_validations`, driver.py:343-399. `names g` are the names of the nodes of the graph, in order.
The messages are sorted before they are joined into one text (driver.py:375-377, 394); here they keep the order in which they
were found. -/
def performGraphValidations (names : G → List Name) (A : List (RunAdapter G V R σ)) (g : G) (s : RunState G V R σ) :
    Option RunErr × RunState G V R σ :=
  match validateNodes A g (names g) s with
  | (.error e, s') => (some (.raised e), s')
  | (.ok [], s') => validateWholeGraph A g s'
  | (.ok (f :: fs), s') =>
    match joinNodes (f :: fs) with
    | none => (some .noMessage, s')
    | some l => (some (.validation l), s')

/-- The `try` block of `Driver.__init__`, driver.py:433-462: build the graph (`buildGraph`: `FunctionGraph.from_modules`
and `modify_graph`), validate, call the hooks. -/
def constructDriver (names : G → List Name) (A : List (RunAdapter G V R σ)) (buildGraph : σ → Except UserErr G × σ)
    (s : RunState G V R σ) : Except RunErr G × RunState G V R σ :=
  match callPreDo A s with
  | (some e, s1) => (.error (.raised e), s1)
  | (none, s1) =>
    match buildGraph s1.st with
    | (.error e, t) => (.error (.raised e), ⟨s1.log, t⟩)
    | (.ok g, t) =>
      match performGraphValidations names A g ⟨s1.log, t⟩ with
      | (some e, s2) => (.error e, s2)
      | (none, s2) =>
        match callPostConstruct A g s2 with
        | (some e, s3) => (.error (.raised e), s3)
        | (none, s3) => (.ok g, s3)

/-! ### Runs -/

/-- A run of the graph: everything `__raw_execute` does (driver.py:804-834: walk, input validation, executor). -/
abbrev RunBody (V σ : Type) := σ → Except UserErr (Dict Name V) × σ

/-- The run with its event. -/
def callRun (body : RunBody V σ) (s : RunState G V R σ) : Except UserErr (Dict Name V) × RunState G V R σ :=
  match body s.st with
  | (r, t) => (r, ⟨s.log ++ [.body r], t⟩)

/-- `do_build_result` if there is one, driver.py:626-631 (`call_lifecycle_method_sync`, base.py:937-955). -/
def callBuild (A : List (RunAdapter G V R σ)) (d : Dict Name V) (s : RunState G V R σ) :
    Except UserErr (RunResult V R) × RunState G V R σ :=
  match A.find? (fun a => a.build.isSome) with
  | none => (.ok (.dict d), s)
  | some a =>
    match a.build with
    | none => (.ok (.dict d), s)
    | some b =>
      match b d s.st with
      | (.error e, t) => (.error e, ⟨s.log ++ [.build a.id (.error e)], t⟩)
      | (.ok r, t) => (.ok (.built r), ⟨s.log ++ [.build a.id (.ok r)], t⟩)

/-- The `finally` block of a run, driver.py:638-647: an exception of a hook replaces the outcome. -/
def finishRun {α : Type} (A : List (RunAdapter G V R σ)) (runId : String) (r : RunReport G V R) (out : Except RunErr α)
    (s : RunState G V R σ) : Except RunErr α × RunState G V R σ :=
  match callPost A runId r s with
  | (some e, s') => (.error (.raised e), s')
  | (none, s') => (out, s')

/-- The report after an exception, driver.py:608-611, 632-637: `run_successful` starts as `True`, and only `except Exception`
changes it; `outs` is what `outputs` holds. -/
def failureReport (p : UserErr → Bool) (g : G) (e : UserErr) (outs : Option (RunResult V R)) : RunReport G V R :=
  if p e then ⟨g, false, some (.raised e), outs⟩ else ⟨g, true, none, outs⟩

/-- `Driver.execute`, driver.py:584-652. The `pre_graph_execute` hooks are called before the `try`. -/
def executeRun (p : UserErr → Bool) (A : List (RunAdapter G V R σ)) (c : RunCall G) (body : RunBody V σ)
    (s : RunState G V R σ) : Except RunErr (RunResult V R) × RunState G V R σ :=
  match callPre A c s with
  | (some e, s1) => (.error (.raised e), s1)
  | (none, s1) =>
    match callRun body s1 with
    | (.error e, s2) => finishRun A c.runId (failureReport p c.graph e none) (.error (.raised e)) s2
    | (.ok d, s2) =>
      match callBuild A d s2 with
      | (.error e, s3) => finishRun A c.runId (failureReport p c.graph e (some (.dict d))) (.error (.raised e)) s3
      | (.ok r, s3) => finishRun A c.runId ⟨c.graph, true, none, some r⟩ (.ok r) s3

/-- The report after an exception in `raw_execute`, driver.py:758-783, and in the async driver, async_driver.py:307-336:
`success` starts as `False`. -/
def rawFailureReport (p : UserErr → Bool) (g : G) (e : UserErr) : RunReport G V R :=
  ⟨g, false, if p e then some (.raised e) else none, none⟩

/-- `Driver.raw_execute`, driver.py:710-784, from the hooks on (the walk and the validation come before them, driver.py:731-748),
and `AsyncDriver.raw_execute`, async_driver.py:274-337. In the async driver the synchronous hooks are called and then the
asynchronous ones with `asyncio.gather` (base.py:928-935); here all of them one after the other. -/
def rawExecuteRun (p : UserErr → Bool) (A : List (RunAdapter G V R σ)) (c : RunCall G) (body : RunBody V σ)
    (s : RunState G V R σ) : Except RunErr (Dict Name V) × RunState G V R σ :=
  match callPre A c s with
  | (some e, s1) => (.error (.raised e), s1)
  | (none, s1) =>
    match callRun body s1 with
    | (.error e, s2) => finishRun A c.runId (rawFailureReport p c.graph e) (.error (.raised e)) s2
    | (.ok d, s2) => finishRun A c.runId ⟨c.graph, true, none, some (.dict d)⟩ (.ok d) s2

/-- `AsyncDriver.execute`, async_driver.py:339-375: the result is built after `raw_execute` has reported. -/
def asyncExecuteRun (p : UserErr → Bool) (A : List (RunAdapter G V R σ)) (c : RunCall G) (body : RunBody V σ)
    (s : RunState G V R σ) : Except RunErr (RunResult V R) × RunState G V R σ :=
  match rawExecuteRun p A c body s with
  | (.error e, s1) => (.error e, s1)
  | (.ok d, s1) =>
    match callBuild A d s1 with
    | (.error e, s2) => (.error (.raised e), s2)
    | (.ok r, s2) => (.ok r, s2)

/-- The `finally` block of a task, executors.py:132-142. -/
def finishTaskRun (A : List (RunAdapter G V R σ)) (task : String) (success : Bool) (error : Option RunErr)
    (results : Option (Dict Name V)) (out : Except RunErr (Dict Name V)) (s : RunState G V R σ) :
    Except RunErr (Dict Name V) × RunState G V R σ :=
  match callPostTask A task success error results s with
  | (some e, s') => (.error (.raised e), s')
  | (none, s') => (out, s')

/-- `base_execute_task`, executors.py:80-151, without the wrapping of generators (executors.py:99-102). `keep` are the
outputs to compute and the overrides of the task. -/
def executeTaskRun (p : UserErr → Bool) (A : List (RunAdapter G V R σ)) (task : String) (keep : Name → Bool)
    (body : RunBody V σ) (s : RunState G V R σ) : Except RunErr (Dict Name V) × RunState G V R σ :=
  match callPreTask A task s with
  | (some e, s1) => (.error (.raised e), s1)
  | (none, s1) =>
    match callRun body s1 with
    | (.error e, s2) =>
      if p e then finishTaskRun A task false (some (.raised e)) none (.error (.raised e)) s2
      else finishTaskRun A task true none none (.error (.raised e)) s2
    | (.ok d, s2) => finishTaskRun A task true none (some d) (.ok (d.filter (fun kv => keep kv.1))) s2

/-! ### materialize -/

/-- `{key: raw_results[key] for key in keys}`, driver.py:1692-1693. -/
def selectKeys (d : Dict Name V) (acc : Dict Name V) : List Name → Except RunErr (Dict Name V)
  | [] => .ok acc
  | k :: rest =>
    match d.get? k with
    | none => .error (.keyError k)
    | some v => selectKeys d (acc.set k v) rest

/-- The two results of `materialize`, driver.py:1692-1694. -/
def materializeOutputs (mats finalVars : List Name) (d : Dict Name V) : Except RunErr (Dict Name V × Dict Name V) :=
  match selectKeys d [] mats with
  | .error e => .error e
  | .ok m =>
    match selectKeys d [] finalVars with
    | .error e => .error e
    | .ok r => .ok (m, r)

/-- What a `materialize` call is made of. `process`: `_process_materializers` (driver.py:1647), giving the ids of the
materializers; `modify`: `modify_graph` (driver.py:1652-1654); `run`: walk, validation and execution of the modified graph
(driver.py:1679-1691). -/
structure MaterializeCall (G V σ : Type) where
  runId : String
  finalVars : List Name
  process : Except UserErr (List Name)
  modify : Except UserErr G
  run : G → RunBody V σ

/-- The `try` block of `materialize` once `function_graph` is bound, driver.py:1655-1694. -/
def materializeBound (names : G → List Name) (A : List (RunAdapter G V R σ)) (m : MaterializeCall G V σ) (mats : List Name)
    (g : G) (s : RunState G V R σ) : Except RunErr (Dict Name V × Dict Name V) × RunState G V R σ :=
  match performGraphValidations names A g s with
  | (some e, s1) => (.error e, s1)
  | (none, s1) =>
    match callPostConstruct A g s1 with
    | (some e, s2) => (.error (.raised e), s2)
    | (none, s2) =>
      match callPre A ⟨m.runId, g, m.finalVars ++ mats⟩ s2 with
      | (some e, s3) => (.error (.raised e), s3)
      | (none, s3) =>
        match callRun (m.run g) s3 with
        | (.error e, s4) => (.error (.raised e), s4)
        | (.ok d, s4) => (materializeOutputs mats m.finalVars d, s4)

/-- The part of the `try` block before `function_graph` is bound, driver.py:1647-1654. -/
def materializeGraph (m : MaterializeCall G V σ) : Except RunErr (List Name × G) :=
  match m.process with
  | .error e => .error (.raised e)
  | .ok mats =>
    if mats.length = 0 ∧ m.finalVars.length = 0 then .error .noOutput
    else
      match m.modify with
      | .error e => .error (.raised e)
      | .ok g => .ok (mats, g)

/-- Whether some adapter has the hook, `does_hook`, base.py:848-869. -/
def doesPost (A : List (RunAdapter G V R σ)) : Bool := A.any (fun a => a.post.isSome)

/-- The report of `materialize`, driver.py:1638-1642, 1695-1710: `results` is the second of the two outputs. -/
def materializeReport (p : UserErr → Bool) (g : G) : Except RunErr (Dict Name V × Dict Name V) → RunReport G V R
  | .ok o => ⟨g, true, none, some (.dict o.2)⟩
  | .error e => if e.isException p then ⟨g, false, some e, none⟩ else ⟨g, true, none, none⟩

/-- `Driver.materialize`, driver.py:1635-1720. In the `finally` block `function_graph` is evaluated: when it was never bound
this raises (driver.py:1706). -/
def materializeRun (p : UserErr → Bool) (names : G → List Name) (A : List (RunAdapter G V R σ)) (m : MaterializeCall G V σ)
    (s : RunState G V R σ) : Except RunErr (Dict Name V × Dict Name V) × RunState G V R σ :=
  match materializeGraph m with
  | .error e => if doesPost A then (.error .unbound, s) else (.error e, s)
  | .ok (mats, g) =>
    match materializeBound names A m mats g s with
    | (out, s1) => finishRun A m.runId (materializeReport p g out) out s1

end Verif
