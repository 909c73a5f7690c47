import Verif.Dict
import Verif.Model.Node
import Verif.Model.Query

/-!
Adapters that record what a run does: Datadog traces (`hamilton/plugins/h_ddog.py`), OpenTelemetry traces
(`hamilton/plugins/h_opentelemetry.py`) and the progress bar (`hamilton/plugins/h_tqdm.py`).  The libraries `ddtrace`, `opentelemetry`
and `tqdm` are modelled by what they record: spans with their parents, and a counter.
-/
namespace Verif.Tracing

/-! ### Datadog -/

/-- Calls of the hooks of a tracer.  `ambient` is the trace that is active where a run begins (`tracer.current_trace_context()`);
`uses` are the keys of `node_kwargs`.  Ends carry the message of the error, if any. -/
inductive Ev where
  | runStart (run : Name) (ambient : Option Nat)
  | runEnd (run : Name) (error : Option UserErr)
  | taskStart (run task : Name)
  | taskEnd (run task : Name) (error : Option UserErr)
  | nodeStart (run : Name) (task : Option Name) (node : Name) (uses : List Name)
  | nodeEnd (run : Name) (task : Option Name) (node : Name) (error : Option UserErr)
  deriving DecidableEq, Repr

/-- Where a span hangs: under a trace from outside, or under another span. -/
inductive Parent where
  | outside (c : Option Nat)
  | inside (i : Nat)
  deriving DecidableEq, Repr

/-- A span: its name, its parent, the spans it is linked to with the names of the links, and once it is finished, with which error.
Spans are known by the order in which they are started.  Tags are left out. -/
structure Span where
  name : String
  parent : Parent
  links : List (Nat × String)
  finished : Option (Option UserErr)
  deriving DecidableEq, Repr

/-- `_DDOGTracerImpl`, h_ddog.py:22-39: the caches hold spans, or in a worker their identifiers (41-66). -/
structure Dd where
  rootName : String
  causal : Bool
  runs : Dict Name Nat
  tasks : Dict Name (Dict Name Nat)
  nodes : Dict Name (Dict (Option Name × Name) Nat)
  deriving DecidableEq, Repr

/-- `_DDOGTracerImpl.__init__`, h_ddog.py:32-39. -/
def Dd.init (rootName : String) (causal : Bool) : Dd := ⟨rootName, causal, [], [], []⟩

/-- `span.__exit__`: the span is finished, with the error if there is one. -/
def finishSpan (w : List Span) (i : Nat) (error : Option UserErr) : List Span :=
  w.modify i (fun s => { s with finished := some error })

/-- `run_before_graph_execution`, h_ddog.py:112-125. -/
def Dd.runStart (d : Dd) (w : List Span) (run : Name) (ambient : Option Nat) : Dd × List Span :=
  ({ d with runs := d.runs.set run w.length, nodes := d.nodes.set run [], tasks := d.tasks.set run [] },
    w ++ [⟨d.rootName, .outside ambient, [], none⟩])

/-- The parent of a node, h_ddog.py:148: `task_span_cache[run_id].get(task_id) or run_span_cache[run_id]`. -/
def Dd.nodeParent (d : Dd) (run : Name) (task : Option Name) : Except UserErr Nat :=
  match d.tasks.get? run with
  | none => .error "KeyError"
  | some ts =>
    match task.bind ts.get? with
    | some i => .ok i
    | none =>
      match d.runs.get? run with
      | none => .error "KeyError"
      | some i => .ok i

/-- The causal links of a node, h_ddog.py:154-165. -/
def causalLinks (ns : Dict (Option Name × Name) Nat) (task : Option Name) (node : Name) (uses : List Name) : List (Nat × String) :=
  uses.filterMap (fun u => (ns.get? (task, u)).map (fun i => (i, u ++ "_to_" ++ node)))

/-- The name of the span of a node, h_ddog.py:149-150. -/
def nodeSpanName (task : Option Name) (node : Name) : String :=
  match task with
  | none => node
  | some t => t ++ ":" ++ node

/-- `run_before_node_execution`, h_ddog.py:127-169. -/
def Dd.nodeStart (d : Dd) (w : List Span) (run : Name) (task : Option Name) (node : Name) (uses : List Name) :
    Except UserErr (Dd × List Span) :=
  match d.nodeParent run task with
  | .error e => .error e
  | .ok p =>
    match d.nodes.get? run with
    | none => .error "KeyError"
    | some ns =>
      .ok ({ d with nodes := d.nodes.set run (ns.set (task, node) w.length) },
        w ++ [⟨nodeSpanName task node, .inside p, if d.causal then causalLinks ns task node uses else [], none⟩])

/-- `run_after_node_execution`, h_ddog.py:171-196. -/
def Dd.nodeEnd (d : Dd) (w : List Span) (run : Name) (task : Option Name) (node : Name) (error : Option UserErr) :
    Except UserErr (Dd × List Span) :=
  match d.nodes.get? run with
  | none => .error "KeyError"
  | some ns =>
    match ns.get? (task, node) with
    | none => .error "KeyError"
    | some i => .ok (d, finishSpan w i error)

/-- `run_after_graph_execution`, h_ddog.py:198-218. -/
def Dd.runEnd (d : Dd) (w : List Span) (run : Name) (error : Option UserErr) : Except UserErr (Dd × List Span) :=
  match d.runs.get? run with
  | none => .error "KeyError"
  | some i =>
    if d.nodes.has run && d.tasks.has run then
      .ok ({ d with runs := d.runs.del run, nodes := d.nodes.del run, tasks := d.tasks.del run }, finishSpan w i error)
    else .error "KeyError"

/-- `run_before_task_execution`, h_ddog.py:220-233. -/
def Dd.taskStart (d : Dd) (w : List Span) (run task : Name) : Except UserErr (Dd × List Span) :=
  match d.runs.get? run with
  | none => .error "KeyError"
  | some p =>
    match d.tasks.get? run with
    | none => .error "KeyError"
    | some ts => .ok ({ d with tasks := d.tasks.set run (ts.set task w.length) }, w ++ [⟨task, .inside p, [], none⟩])

/-- `run_after_task_execution`, h_ddog.py:235-258. -/
def Dd.taskEnd (d : Dd) (w : List Span) (run task : Name) (error : Option UserErr) : Except UserErr (Dd × List Span) :=
  match d.tasks.get? run with
  | none => .error "KeyError"
  | some ts =>
    match ts.get? task with
    | none => .error "KeyError"
    | some i => .ok (d, finishSpan w i error)

/-- The hooks of `DDOGTracer`, h_ddog.py:294-388, and of `AsyncDDOGTracer`, 416-503, which delegate. -/
def Dd.step (d : Dd) (w : List Span) : Ev → Except UserErr (Dd × List Span)
  | .runStart r a => .ok (d.runStart w r a)
  | .runEnd r e => d.runEnd w r e
  | .taskStart r t => d.taskStart w r t
  | .taskEnd r t e => d.taskEnd w r t e
  | .nodeStart r t n us => d.nodeStart w r t n us
  | .nodeEnd r t n e => d.nodeEnd w r t n e

/-- The hooks called one after the other. -/
def Dd.runAll (d : Dd) (w : List Span) : List Ev → Except UserErr (Dd × List Span)
  | [] => .ok (d, w)
  | e :: es =>
    match d.step w e with
    | .error x => .error x
    | .ok (d', w') => d'.runAll w' es

/-- Pickling and unpickling, `__getstate__` and `__setstate__`, h_ddog.py:68-101: identifiers instead of spans.  The cache of nodes
becomes that of the tasks; its keys are not pairs, so nothing is ever found in it: it is modelled by empty caches. -/
def Dd.pickled (d : Dd) : Dd := { d with nodes := d.tasks.map (fun p => (p.1, [])) }

/-- What happens in a distributed run: a hook is called in a process (0 is the main one), or a copy of the adapter of the main process
is sent to a new process, as it is with every task (executors.py:85-150). -/
inductive Act where
  | hook (p : Nat) (e : Ev)
  | fork (p : Nat)
  deriving DecidableEq, Repr

/-- A distributed run, in the order in which things happen.  Simplification: a single collection of spans. -/
def runWorld (W : Nat → Dd) (w : List Span) : List Act → Except UserErr ((Nat → Dd) × List Span)
  | [] => .ok (W, w)
  | .hook p e :: as =>
    match (W p).step w e with
    | .error x => .error x
    | .ok (d, w') => runWorld (fun q => if q = p then d else W q) w' as
  | .fork p :: as => runWorld (fun q => if q = p then (W 0).pickled else W q) w as

/-! ### OpenTelemetry -/

/-- Spans are known by the context (thread or asyncio task) they are started in and their number there. -/
abbrev SpanId := Nat × Nat

/-- What is exported. -/
inductive OEv where
  | started (id : SpanId) (name : String) (parent : Option SpanId)
  | ended (id : SpanId) (error : Option UserErr)
  deriving DecidableEq, Repr

/-- The variables of a context: the current span of OpenTelemetry and `token_stack` (h_opentelemetry.py:25), whose tokens are the spans
that were current before; the last entry comes first. -/
structure Ctx where
  current : Option SpanId
  stack : Option (List (Option SpanId × SpanId))
  count : Nat
  log : List OEv
  deriving DecidableEq, Repr

/-- A new thread. -/
def Ctx.fresh : Ctx := ⟨none, none, 0, []⟩

/-- `_enter_span`, h_opentelemetry.py:42-58. -/
def Ctx.enter (c : Nat) (x : Ctx) (name : String) : Ctx :=
  ⟨some (c, x.count), some ((x.current, (c, x.count)) :: x.stack.getD []), x.count + 1,
    x.log ++ [.started (c, x.count) name x.current]⟩

/-- `_exit_span`, h_opentelemetry.py:28-39. -/
def Ctx.exit (x : Ctx) (error : Option UserErr) : Except UserErr Ctx :=
  match x.stack with
  | none => .error "TypeError"
  | some [] => .error "IndexError"
  | some ((token, id) :: rest) => .ok ⟨token, some rest, x.count, x.log ++ [.ended id error]⟩

/-- The hooks of `OpenTelemetryTracer`, h_opentelemetry.py:84-150: all hooks before enter a span named after the run, the task or the
node, all hooks after leave the last one.  Attributes are left out. -/
inductive Op where
  | enter (name : String)
  | exit (error : Option UserErr)
  deriving DecidableEq, Repr

/-- One hook in a context. -/
def Ctx.step (c : Nat) (x : Ctx) : Op → Except UserErr Ctx
  | .enter n => .ok (x.enter c n)
  | .exit e => x.exit e

/-- Hooks one after the other in a context. -/
def Ctx.runAll (c : Nat) (x : Ctx) : List Op → Except UserErr Ctx
  | [] => .ok x
  | o :: os =>
    match x.step c o with
    | .error e => .error e
    | .ok y => y.runAll c os

/-- Hooks in several contexts, in some interleaving. -/
def runContexts (w : Nat → Ctx) : List (Nat × Op) → Except UserErr (Nat → Ctx)
  | [] => .ok w
  | (c, o) :: es =>
    match (w c).step c o with
    | .error e => .error e
    | .ok y => runContexts (fun k => if k = c then y else w k) es

/-! ### The progress bar -/

/-- What `tqdm` shows: the description, the total, the number of updates, and whether it is closed. -/
structure Bar where
  total : Nat
  count : Nat
  description : String
  closed : Bool
  deriving DecidableEq, Repr

/-- `ProgressBar`, with a non-negative width, h_tqdm.py:33-47. -/
structure Progress where
  desc : String
  maxWidth : Nat
  width : Option Nat
  bar : Option Bar
  deriving DecidableEq, Repr

/-- `node_name[: k]` for an integer `k`. -/
def sliceTo (l : List Char) (k : Int) : List Char := if 0 ≤ k then l.take k.toNat else l.take (l.length - (-k).toNat)

/-- `_get_node_name_display`, h_tqdm.py:49-58. -/
def display (width : Nat) (name : String) : String :=
  let out := if name.length ≤ width then name.toList else sliceTo name.toList ((width : Int) - 3) ++ ['.', '.', '.']
  String.ofList (if out.length < width then out ++ List.replicate (width - out.length) ' ' else out)

/-- `run_before_graph_execution`, h_tqdm.py:60-78; `max([])` raises a `ValueError`. -/
def Progress.runStart (p : Progress) (path : List Name) : Except UserErr Progress :=
  if path.isEmpty then .error "ValueError"
  else
    .ok { p with
      width := some (p.width.getD (min (path.foldl (fun m n => max m n.length) 0) p.maxWidth))
      bar := some ⟨path.length, 0, p.desc, false⟩ }

/-- `run_before_node_execution`, h_tqdm.py:80-91. -/
def Progress.nodeStart (p : Progress) (node : Name) : Progress :=
  { p with bar := p.bar.map (fun b => { b with description := p.desc ++ " -> " ++ display (p.width.getD 0) node }) }

/-- `run_after_node_execution`, h_tqdm.py:93-94. -/
def Progress.nodeEnd (p : Progress) : Progress := { p with bar := p.bar.map (fun b => { b with count := b.count + 1 }) }

/-- `run_after_graph_execution`, h_tqdm.py:96-104. -/
def Progress.runEnd (p : Progress) : Progress :=
  { p with bar := p.bar.map (fun b =>
      { b with
        description := p.desc ++ " -> " ++ "Execution Complete!" ++
          String.ofList (List.replicate (p.width.getD 0 - "Execution Complete!".length) ' ')
        closed := true }) }

/-- A whole run: the hooks for the functions that are called, in their order. -/
def Progress.run (p : Progress) (path called : List Name) : Except UserErr Progress :=
  match p.runStart path with
  | .error e => .error e
  | .ok q => .ok (called.foldl (fun q n => (q.nodeStart n).nodeEnd) q).runEnd

end Verif.Tracing
