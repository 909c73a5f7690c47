import Verif.Proofs.Recorders

/-!
C88: adapters that record runs (MLflow, experiments, OpenLineage, Slack) record what happened in the run, and do not change it.
-/
namespace Verif.Recorders

open Spec

/-! ### MLflow -/

/-- **C88, MLflow.**  Any number of executions with one tracker, one after the other, each of which it can record: every execution ends
as it would by itself; the server has one more run for each, with the identifier and version of the execution, its configuration and
inputs as parameters, one entry for each saver with a path and each final variable that was computed, in order, and the status
`FINISHED` or `FAILED`; the registry of models knows which node, function and tags each registered model comes from; no run is left
active.  Partial: see `Trackable` for the executions that are excluded, and the violations below. -/
theorem C88_mlflow_partial (rs : List Run) : ∀ k : Tracker, (∀ l, l ≠ [] → k.choose l ∈ l) → k.server.active = none →
    (∀ r ∈ rs, Trackable k.config r) →
    (driveAll mlflow k rs).2 = rs.map failureOf ∧
    (driveAll mlflow k rs).1.server =
      { runs := k.server.runs ++ rs.map (mlRunOf k.config)
        notes := k.server.notes ++ rs.flatMap fun r => (succeeded r.steps).filterMap (noteOf r.graph)
        active := none } := by
  induction rs with
  | nil =>
    intro k _ ha _
    refine ⟨rfl, ?_⟩
    simp only [driveAll, List.map_nil, List.append_nil, List.flatMap_nil]
    rw [← ha]
  | cons r rest ih =>
    intro k hc ha h
    obtain ⟨k', hd, e1, e2, e3⟩ := ml_drive k r hc ha (h r (by simp))
    have := ih k' (by rw [e2]; exact hc) (by rw [e3]) (by rw [e1]; exact fun u hu => h u (List.mem_cons_of_mem _ hu))
    simp only [driveAll, hd]
    refine ⟨by rw [this.1]; rfl, ?_⟩
    rw [this.2, e3, e1]
    simp

/-! ### Experiments -/

/-- **C88, experiments.**  An execution with a new tracker that it can record ends as it would by itself; its record is stored under
the identifier of the tracker, other records stay; the record tells whether the execution succeeded, its version, modules,
configuration, inputs with defaults, overrides, and what each saver wrote and where; savers were executed in the directory of the run,
all other nodes in the directory the process was in, and the process is back there.  Partial: see `Experimental` for the executions that
are excluded, and the violations below. -/
theorem C88_experiment_partial (l : Lab) (r : Run) (h : Experimental r) (hcwd : l.cwd = l.initDir)
    (hnew : l.modules = [] ∧ l.inputs = [] ∧ l.overrides = [] ∧ l.materialized = [] ∧ l.ran = []) :
    ∃ l' rec, drive experiment l r = (l', failureOf r) ∧ l'.cwd = l.initDir ∧
      l'.ran = ranIn l.initDir l.runDir r.steps ∧
      (∀ id, l'.db.get? id = if id = l.id then some rec else l.db.get? id) ∧
      rec.success = (failureOf r).isNone ∧ rec.version = r.version ∧ rec.config = l.config ∧
      rec.modules.Nodup ∧ (∀ m, m ∈ rec.modules ↔ ∃ n ∈ r.graph, n.module = some m) ∧
      rec.inputs = r.graph.filterMap (inputOf (r.inputs.getD [])) ∧
      rec.overrides = r.overrides.getD [] ∧
      rec.materialized = (succeeded r.steps).filterMap (materializedOf l.runDir) := by
  obtain ⟨n1, n2, n3, n4, n5⟩ := hnew
  obtain ⟨ms, h1, h2, l', e1, e2, _, _, e5, e6⟩ := lab_drive l r hcwd h
  refine ⟨l', ⟨(failureOf r).isNone, r.version, ms, l.config, l.inputs ++ r.graph.filterMap (inputOf (r.inputs.getD [])),
    if (r.overrides.getD []).isEmpty then l.overrides else r.overrides.getD [],
    l.materialized ++ (succeeded r.steps).filterMap (materializedOf l.runDir)⟩, e1, e2, ?_, ?_, rfl, rfl, rfl, h2 (by rw [n1]; simp), ?_, ?_, ?_, ?_⟩
  · rw [e5, n5]; rfl
  · intro id
    rw [e6, Dict.get?_set]
    by_cases hid : id = l.id
    · simp [hid]
    · have : ¬ l.id = id := fun h => hid h.symm
      simp [hid, this]
  · intro m
    rw [h1, n1]
    simp
  · show l.inputs ++ _ = _
    rw [n2]; rfl
  · show (if _ then l.overrides else _) = _
    rw [n3]
    cases hov : r.overrides.getD [] <;> rfl
  · show l.materialized ++ _ = _
    rw [n4]; rfl

/-! ### OpenLineage -/

/-- **C88, OpenLineage.**  An execution ends as it would by itself, and the events are exactly: one `START` with version, final
variables, names of inputs and overrides; one `RUNNING` for each saver and loader that succeeded and has metadata, with the data set;
one `COMPLETE`, or one `FAIL` with the exception.  Partial: metadata of data that is no frame is excluded, and loaders whose node has no
dot in its name; see the violations below. -/
theorem C88_lineage_partial (out : List Event) (r : Run) (hn : ∀ t ∈ r.steps, t.node.saver = none ∨ t.node.loader = none)
    (h : ∀ x ∈ succeeded r.steps, (∀ m, told x = some m → framed m) ∧ visible x) :
    drive lineage out r = (out ++ eventsOf r, failureOf r) := lineage_drive out r hn h

theorem lineageCall_append (out : List Event) (c : Call) :
    (lineageCall out c).1 = out ++ (lineageCall [] c).1 := by
  cases c with
  | start r => rfl
  | after run t =>
    simp only [lineageCall, lineageAfter]
    cases lineageEvents run t <;> simp
  | finish r err => cases err <;> rfl

/-- The run that a call of a hook is made for. -/
def callRun : Call → Name
  | .start r => r.id
  | .after run _ => run
  | .finish r _ => r.id

theorem lineageCall_run (c : Call) : ∀ e ∈ (lineageCall [] c).1, runOf e = callRun c := by
  cases c with
  | start r => intro e he; simp only [lineageCall, lineageStart, List.nil_append, List.mem_singleton] at he; rw [he]; rfl
  | after run t =>
    have h : ∀ es, lineageEvents run t = .ok es → ∀ e ∈ es, runOf e = run := by
      intro es h e he
      simp only [lineageEvents] at h
      grind [runOf]
    simp only [lineageCall, lineageAfter, callRun]
    cases hev : lineageEvents run t with
    | error e => simp
    | ok es => simpa using h es hev
  | finish r err =>
    intro e he
    cases err <;> simp only [lineageCall, lineageFinish, List.nil_append, List.mem_singleton] at he <;> rw [he] <;> rfl

theorem lineageCalls_append (cs : List Call) : ∀ out, lineageCalls out cs = out ++ lineageCalls [] cs := by
  induction cs with
  | nil => intro out; simp [lineageCalls]
  | cons c cs ih =>
    intro out
    rw [lineageCalls, lineageCalls, ih, ih (lineageCall [] c).1, lineageCall_append]
    simp

/-- **C88, OpenLineage, several executions at once.**  However the hooks of several executions come one after the other, the events of
an execution are those that its own calls alone would have given, in that order. -/
theorem C88_lineage_separate (id : Name) (cs : List Call) :
    (lineageCalls [] cs).filter (fun e => runOf e = id) = lineageCalls [] (cs.filter fun c => callRun c = id) := by
  induction cs with
  | nil => rfl
  | cons c cs ih =>
    rw [lineageCalls, lineageCalls_append, List.filter_append, ih]
    by_cases h : callRun c = id
    · have h1 : (lineageCall [] c).1.filter (fun e => runOf e = id) = (lineageCall [] c).1 := by
        rw [List.filter_eq_self]
        intro e he
        rw [lineageCall_run c e he]
        simpa using h
      have h2 : (c :: cs).filter (fun c => callRun c = id) = c :: cs.filter fun c => callRun c = id := by simp [h]
      rw [h1, h2, lineageCalls, lineageCalls_append _ (lineageCall [] c).1]
    · have h1 : (lineageCall [] c).1.filter (fun e => runOf e = id) = [] := by
        rw [List.filter_eq_nil_iff]
        intro e he
        rw [lineageCall_run c e he]
        simpa using h
      have h2 : (c :: cs).filter (fun c => callRun c = id) = cs.filter fun c => callRun c = id := by simp [h]
      rw [h1, h2]
      rfl

/-! ### Slack -/

/-- **C88, Slack.**  Each execution ends as it would by itself, and there is one message for each execution in which a node failed, with
the run, the node and the exception, and no other. -/
theorem C88_slack (rs : List Run) : ∀ out, driveAll slack out rs =
    (out ++ rs.flatMap (fun r => (failed r.steps).toList.map fun x => (r.id, x.1.node.name, x.2)), rs.map failureOf) := by
  induction rs with
  | nil => intro out; simp [driveAll]
  | cons r rest ih =>
    intro out
    have := drive_of slack (s := out) (s1 := out) (run := r) rfl (slack_steps r.id r.steps out) rfl (failureOf_eq r)
    simp only [driveAll, this, ih]
    simp

/-! ### Cases -/
namespace Sample

/-- A graph: an input, the column it becomes, a plot of it, a score, savers of the column and of the plot and of the model. -/
def input : GNode := { name := "x", external := true, origins := [⟨"col", [("x", none), ("scale", some (.number 2))]⟩] }
def scale : GNode := { name := "scale", external := true, origins := [⟨"col", [("x", none), ("scale", some (.number 2))]⟩] }
def col : GNode :=
  { name := "col", origins := [⟨"col", []⟩], doc := "A column.", required := ["x"], module := some "features",
    tags := [("owner", "me"), ("hamilton.source", "a")] }
def plot : GNode := { name := "plot", origins := [⟨"plot", []⟩], required := ["col"], type := .figure, module := some "plots" }
def score : GNode := { name := "score", origins := [⟨"score", []⟩], required := ["col"], type := .float, module := some "features" }
def saveCol : GNode := { name := "save_col", required := ["col"], saver := some "csv", saverClass := "PandasCSVWriter" }
def savePlot : GNode := { name := "save_plot", required := ["plot"], saver := some "plt", saverClass := "MatplotlibWriter" }
def saveModel : GNode := { name := "save_model", required := ["col"], saver := some "mlflow", saverClass := "MLFlowModelSaver" }
def load : GNode := { name := "load_data.x", loader := some true }

/-- An execution of these nodes. -/
def run : Run :=
  { id := "r1"
    finalVars := ["score"]
    inputs := some [("x", .other 1)]
    overrides := none
    graph := [input, scale, col, plot, score, saveCol, savePlot, saveModel]
    version := "v1"
    steps :=
      [⟨col, [("x", .other 1)], .ok (.other 2)⟩, ⟨plot, [("col", .other 2)], .ok (.other 3)⟩,
       ⟨score, [("col", .other 2)], .ok (.number 7)⟩,
       ⟨saveCol, [("col", .other 2)], .ok (.info { file := some "col.csv", frame := some (some [("a", "int64")]) })⟩,
       ⟨savePlot, [("plot", .other 3)], .ok (.info { path := some "plot.svg" })⟩,
       ⟨saveModel, [("col", .other 2)], .ok (.info { path := some "model", registered := some ("m", "3") })⟩] }

/-- The same, but the plot fails. -/
def failing : Run :=
  { run with
    id := "r2"
    steps := [⟨score, [("col", .other 2)], .ok (.number 7)⟩, ⟨plot, [("col", .other 2)], .error (.user 5)⟩,
      ⟨savePlot, [("plot", .other 3)], .ok (.info { path := some "plot.svg" })⟩] }

def tracker : Tracker := { config := [("mode", .other 9)], choose := fun l => l.headD "" }

theorem tracker_choose : ∀ l, l ≠ [] → tracker.choose l ∈ l := by
  intro l h
  cases l with
  | nil => exact absurd rfl h
  | cons a l => simp [tracker]

theorem run_trackable : Trackable tracker.config run where
  inputs := ⟨_, rfl, by decide⟩
  failing := by simp [run]
  saved := by simp [run, col, plot, score, saveCol, savePlot, saveModel]
  numbers := by simp [run, col, plot, score, saveCol, savePlot, saveModel]
  names := by decide
  once := by decide
  source := by simp [run, col, plot, score, saveCol, savePlot, saveModel]

theorem failing_trackable : Trackable tracker.config failing where
  inputs := ⟨_, rfl, by decide⟩
  failing := by simp [failing, run, score, plot, savePlot]
  saved := by simp [failing, score, plot, savePlot]
  numbers := by simp [failing, run, score, plot, savePlot]
  names := by decide
  once := by decide
  source := by simp [failing, run, score, plot, savePlot, col, input, scale, saveCol, saveModel]

/-- The first execution logs the score, the table and the plot, the second the score only; the model is known to come from `col`. -/
example : (driveAll mlflow tracker [run, failing]).2 = [none, some (.user 5)] ∧
    (driveAll mlflow tracker [run, failing]).1.server =
      { runs :=
          [{ hamiltonRun := "r1", codeVersion := "v1", params := [("mode", .other 9), ("x", .other 1)],
             log := [.metric "score" 7, .artifact "col.csv" "save_col", .figure (.other 3) "plot.svg"], finished := some true },
           { hamiltonRun := "r2", codeVersion := "v1", params := [("mode", .other 9), ("x", .other 1)],
             log := [.metric "score" 7], finished := some false }]
        notes := [⟨"m", "3", "A column.", "col", "col", [("owner", "me")]⟩]
        active := none } := by
  have h := C88_mlflow_partial [run, failing] tracker tracker_choose rfl
    (by intro r hr
        simp only [List.mem_cons, List.not_mem_nil, or_false] at hr
        rcases hr with rfl | rfl
        · exact run_trackable
        · exact failing_trackable)
  exact ⟨h.1.trans (by decide), h.2.trans (by decide +kernel)⟩

def lab : Lab := { id := "e", initDir := "/home", runDir := "/home/experiments/a/e", relative := true, config := [], cwd := "/home" }

theorem run_experimental : Experimental run where
  inputs := rfl
  params := by simp [run, input, scale, col, plot, score, saveCol, savePlot, saveModel]
  failing := by simp [run]
  saved := by simp [run, col, plot, score, saveCol, savePlot, saveModel]

/-- The record of the first execution, and the directories its nodes were executed in. -/
example : (drive experiment lab run).2 = none ∧ (drive experiment lab run).1.cwd = "/home" ∧
    (drive experiment lab run).1.ran.map Prod.snd =
      ["/home", "/home", "/home", "/home/experiments/a/e", "/home/experiments/a/e", "/home/experiments/a/e"] ∧
    (drive experiment lab run).1.read "e" = .ok
      { success := true, version := "v1", modules := ["features", "plots"], config := []
        inputs := [("x", .other 1, .none), ("scale", .none, .number 2)], overrides := []
        materialized :=
          [⟨["col"], "/home/experiments/a/e/col.csv", "csv", "PandasCSVWriter"⟩,
           ⟨["plot"], "/home/experiments/a/e/plot.svg", "plt", "MatplotlibWriter"⟩,
           ⟨["col"], "/home/experiments/a/e/model", "mlflow", "MLFlowModelSaver"⟩] } := by
  obtain ⟨l', rec, h, _⟩ := C88_experiment_partial lab run run_experimental rfl (by decide)
  exact ⟨by decide +kernel, by decide +kernel, by decide +kernel, by rfl⟩

/-- An execution with a loader and a saver. -/
def loading : Run :=
  { run with
    id := "r3"
    steps := [⟨load, [], .ok (.pair 1 { file := some "d/x.parquet", frame := some (some [("a", "int64")]) })⟩,
      ⟨saveCol, [("col", .other 2)], .ok (.info { file := some "col.csv" })⟩, ⟨score, [], .error (.user 4)⟩] }

/-- Its events. -/
example : drive lineage [] loading =
    ([.start "r3" "v1" ["score"] ["x"] [],
      .running "r3" [⟨some "load_data.x", some ("load_data.x", "parquet", "d/x.parquet"), some [("a", "int64")]⟩] [] none,
      .running "r3" [] [⟨some "col.csv", some ("save_col", "csv", "col.csv"), none⟩] none,
      .fail "r3" (.user 4)], some (.user 4)) := by
  refine (C88_lineage_partial [] loading (by simp [loading, load, saveCol, score]) ?_).trans (by decide +kernel)
  have hs : succeeded loading.steps =
      [(⟨load, [], .ok (.pair 1 { file := some "d/x.parquet", frame := some (some [("a", "int64")]) })⟩,
        .pair 1 { file := some "d/x.parquet", frame := some (some [("a", "int64")]) }),
       (⟨saveCol, [("col", .other 2)], .ok (.info { file := some "col.csv" })⟩, .info { file := some "col.csv" })] := rfl
  rw [hs]
  intro x hx
  simp only [List.mem_cons, List.not_mem_nil, or_false] at hx
  rcases hx with rfl | rfl
  · refine ⟨?_, ?_⟩
    · intro m hm
      simp only [told, load] at hm
      cases hm
      simp [framed]
    · intro id m p h1 h2
      cases h1
      cases h2
      exact ⟨by decide +kernel, by decide +kernel⟩
  · refine ⟨?_, ?_⟩
    · intro m hm
      simp only [told, saveCol] at hm
      cases hm
      simp [framed]
    · intro id m p h1 h2
      cases h1

/-- Two executions at once: their events are told apart. -/
example : (lineageCalls [] [.start run, .start failing, .after "r2" ⟨plot, [], .error (.user 5)⟩,
      .after "r1" ⟨saveCol, [], .ok (.info { file := some "col.csv" })⟩, .finish failing (some (.user 5)),
      .finish run none]).filter (fun e => runOf e = "r2") =
    [.start "r2" "v1" ["score"] ["x"] [], .fail "r2" (.user 5)] := by
  rw [C88_lineage_separate]
  decide +kernel

/-- One message, for the execution that failed. -/
example : driveAll slack [] [run, failing] = ([("r2", "plot", .user 5)], [none, some (.user 5)]) := by
  rw [C88_slack]
  decide +kernel

/-! ### Violations -/

/-- **C88 is violated** by MLflow and executions without inputs (`inputs` is optional for the driver): the execution ends with an
AttributeError before any node is executed, its run stays active for ever, and the next execution fails because of that. -/
theorem C88_violated_no_inputs :
    (driveAll mlflow tracker [{ run with inputs := none }, run]).2 = [some .attribute, some .mlflow] ∧
    (driveAll mlflow tracker [{ run with inputs := none }, run]).1.server.active = some 0 ∧
    (driveAll mlflow tracker [{ run with inputs := none }, run]).1.server.runs.map MlRun.finished = [none, none] := by
  decide +kernel

/-- **C88 is violated** by MLflow and final variables that fail: the exception of the user is replaced by that of the tracker. -/
theorem C88_violated_masked :
    failureOf { run with steps := [⟨score, [], .error (.user 5)⟩] } = some (.user 5) ∧
    (drive mlflow tracker { run with steps := [⟨score, [], .error (.user 5)⟩] }).2 = some .type := by
  decide +kernel

/-- **C88 is violated** by MLflow and final variables that fail: `None` is logged as the result of a node that has none. -/
theorem C88_violated_failed_value :
    (drive mlflow tracker { run with finalVars := ["col"], steps := [⟨col, [], .error (.user 5)⟩] }).1.server.runs.map MlRun.log =
      [[.dict .none "col.pickle"]] := by
  decide +kernel

/-- **C88 is violated** by MLflow and savers with several dependencies: which node the figure, and hence the log, comes from is chosen
by `set.pop`. -/
theorem C88_violated_two_sources :
    ∃ c1 c2 : List Name → Name, (∀ l, l ≠ [] → c1 l ∈ l) ∧ (∀ l, l ≠ [] → c2 l ∈ l) ∧
      (drive mlflow { tracker with choose := c1 } { run with
        graph := [col, plot, { savePlot with required := ["plot", "col"] }]
        steps := [⟨{ savePlot with required := ["plot", "col"] }, [("plot", .other 3), ("col", .other 2)], 
          .ok (.info { path := some "p.svg" })⟩] }).1.server.runs.map MlRun.log = [[.figure (.other 3) "p.svg"]] ∧
      (drive mlflow { tracker with choose := c2 } { run with
        graph := [col, plot, { savePlot with required := ["plot", "col"] }]
        steps := [⟨{ savePlot with required := ["plot", "col"] }, [("plot", .other 3), ("col", .other 2)], 
          .ok (.info { path := some "p.svg" })⟩] }).1.server.runs.map MlRun.log = [[.figure (.other 2) "p.svg"]] := by
  refine ⟨fun l => l.headD "", fun l => l.getLastD "", tracker_choose, ?_, by decide +kernel, by decide +kernel⟩
  intro l h
  show l.getLastD "" ∈ l
  rw [List.getLastD_eq_getLast?, List.getLast?_eq_some_getLast h]
  exact List.getLast_mem h

/-- **C88 is violated** by MLflow and savers that are executed several times in a run (in parallel blocks): the second time fails. -/
theorem C88_violated_twice :
    (drive mlflow tracker { run with
      steps := [⟨savePlot, [("plot", .other 3)], .ok (.info { path := some "p.svg" })⟩,
        ⟨savePlot, [("plot", .other 4)], .ok (.info { path := some "p.svg" })⟩] }).2 = some .key := by
  decide +kernel

/-- **C88 is violated** by MLflow and the argument `run_id` ("Run id to log to an existing run"): the run is not logged to. -/
theorem C88_violated_run_id :
    (drive mlflow { tracker with given := some 0, server := { runs := [⟨"old", "v0", [], [], none⟩] } } run).1.server.runs.head? =
      some ⟨"old", "v0", [], [], none⟩ := by
  decide +kernel

/-- **C88 is violated** by MLflow and two executions at once with one tracker: the second cannot start, and what the first logs from
then on is found in the run of the second. -/
theorem C88_violated_overlap :
    ((tracker.start run).1.start failing).2 = some .mlflow ∧
    ((((tracker.start run).1.start failing).1.after ⟨score, [], .ok (.number 7)⟩).1.server.runs.map
      fun r => (r.hamiltonRun, r.log)) = [("r1", []), ("r2", [.metric "score" 7])] := by
  decide +kernel

/-- **C88 is violated** by experiments and a tracker that is used for two executions: the record of the first is replaced, and the
inputs and materializations of the first are in the record of the second. -/
theorem C88_violated_second :
    ((driveAll experiment lab [run, failing]).1.db.map Prod.fst = ["e"]) ∧
    (((driveAll experiment lab [run, failing]).1.db.map fun p => (p.2.success, p.2.inputs.map Prod.fst, p.2.materialized.length)) =
      [(false, ["x", "scale", "x", "scale"], 3)]) := by
  decide +kernel

/-- **C88 is violated** by experiments and savers that fail: the exception is replaced, the process stays in the directory of the run,
and there is no record at all. -/
theorem C88_violated_saver_fails :
    failureOf { run with steps := [⟨saveCol, [], .error (.user 5)⟩] } = some (.user 5) ∧
    (drive experiment lab { run with steps := [⟨saveCol, [], .error (.user 5)⟩] }).2 = some .db ∧
    (drive experiment lab { run with steps := [⟨saveCol, [], .error (.user 5)⟩] }).1.cwd = "/home/experiments/a/e" ∧
    (drive experiment lab { run with steps := [⟨saveCol, [], .error (.user 5)⟩] }).1.db = [] := by
  decide +kernel

/-- **C88 is violated** by experiments and savers that tell no path (those of databases): the execution fails because of the tracker,
although nothing else did. -/
theorem C88_violated_no_path :
    failureOf { run with steps := [⟨saveCol, [], .ok (.info { sql := some (some "t", none) })⟩] } = none ∧
    (drive experiment { lab with relative := false }
      { run with steps := [⟨saveCol, [], .ok (.info { sql := some (some "t", none) })⟩] }).2 = some .unbound := by
  decide +kernel

/-- **C88 is violated** by experiments and executions without inputs, when the graph has an input (even one with a default). -/
theorem C88_violated_experiment_no_inputs :
    failureOf { run with inputs := none, graph := [scale] } = none ∧
    (drive experiment lab { run with inputs := none, graph := [scale] }).2 = some .attribute := by
  decide +kernel

/-- **C88 is violated** by OpenLineage and loaders of data that is no frame (a series, or all sheets of a workbook): the execution fails
because of the adapter. -/
theorem C88_violated_no_frame :
    failureOf { run with steps := [⟨load, [], .ok (.pair 1 { file := some "x.pkl", frame := some none })⟩] } = none ∧
    (drive lineage [] { run with steps := [⟨load, [], .ok (.pair 1 { file := some "x.pkl", frame := some none })⟩] }).2 =
      some .type := by
  decide +kernel

/-- **C88 is violated** by OpenLineage and functions that are data loaders: the type of the file is reported as unknown. -/
theorem C88_violated_format :
    inputSet { load with name := "x.loader" } { file := some "x.csv" } =
      .ok (⟨some "x", some ("x", "unknown", "x.csv"), none⟩, none) := by
  rfl

end Sample

end Verif.Recorders
