import Verif.Model.Tracing

/-! What traces should look like, read off the calls of the hooks (C84). -/
namespace Verif.Tracing

/-- What a span stands for: a run, a task of a run, or a node of a run, inside a task or not. -/
inductive Key where
  | run (r : Name)
  | task (r t : Name)
  | node (r : Name) (t : Option Name) (n : Name)
  deriving DecidableEq, Repr

/-- What begins with an event. -/
def began : Ev → Option Key
  | .runStart r _ => some (.run r)
  | .taskStart r t => some (.task r t)
  | .nodeStart r t n _ => some (.node r t n)
  | _ => none

/-- What ends with an event, and how. -/
def done : Ev → Option (Key × Option UserErr)
  | .runEnd r e => some (.run r, e)
  | .taskEnd r t e => some (.task r t, e)
  | .nodeEnd r t n e => some (.node r t n, e)
  | _ => none

/-- All that has begun, in order. -/
def begun (es : List Ev) : List Key := es.filterMap began

/-- Begun and not ended. -/
def Open (k : Key) (es : List Ev) : Prop := k ∈ begun es ∧ ∀ err, (k, err) ∉ es.filterMap done

/-- What may happen next: nothing begins twice, everything of a run happens while the run is open, and only what is open ends. -/
def Allowed (pre : List Ev) : Ev → Prop
  | .runStart r _ => .run r ∉ begun pre
  | .taskStart r t => Open (.run r) pre ∧ .task r t ∉ begun pre
  | .nodeStart r t n _ => Open (.run r) pre ∧ .node r t n ∉ begun pre
  | .runEnd r _ => Open (.run r) pre
  | .taskEnd r t _ => Open (.run r) pre ∧ Open (.task r t) pre
  | .nodeEnd r t n _ => Open (.run r) pre ∧ Open (.node r t n) pre

/-- Any interleaving of runs, tasks and nodes in which things begin before they end. -/
def Valid (es : List Ev) : Prop := ∀ pre e post, es = pre ++ e :: post → Allowed pre e

/-- The place of something among all that has begun: the number of its span. -/
def place (es : List Ev) (k : Key) : Option Nat := (begun es).idxOf? k

/-- What a node hangs under: its task, if that has begun, and else its run. -/
def above (pre : List Ev) (r : Name) (t : Option Name) : Option Nat :=
  (t.bind (fun t' => place pre (.task r t'))).or (place pre (.run r))

/-- The span that an event should start after the events `pre`. -/
def expected (root : String) (causal : Bool) (pre : List Ev) : Ev → Option Span
  | .runStart _ a => some ⟨root, .outside a, [], none⟩
  | .taskStart r t => (place pre (.run r)).map (fun i => ⟨t, .inside i, [], none⟩)
  | .nodeStart r t n us =>
    (above pre r t).map (fun i => ⟨(t.map (· ++ ":")).getD "" ++ n, .inside i,
      if causal then us.filterMap (fun u => (place pre (.node r t u)).map (fun j => (j, u ++ "_to_" ++ n))) else [], none⟩)
  | _ => none

/-- How something ended, if it did. -/
def ending (post : List Ev) (k : Key) : Option (Option UserErr) := ((post.filterMap done).find? (fun p => p.1 = k)).map (·.2)

/-- The trace mirrors the events: one span for everything that began, in that order, as expected and ended as it ended. -/
def Mirrors (root : String) (causal : Bool) (es : List Ev) (w : List Span) : Prop :=
  w.length = (begun es).length ∧
  ∀ pre e post k, es = pre ++ e :: post → began e = some k →
    ∃ s, expected root causal pre e = some s ∧ w[(begun pre).length]? = some { s with finished := ending post k }

/-- The event of a call of a hook. -/
def eventOf : Act → Option Ev
  | .hook _ e => some e
  | .fork _ => none

/-- The events of a distributed run. -/
def events (as : List Act) : List Ev := as.filterMap eventOf

/-- The process in which an event should happen: those of runs in the main one, those of tasks and nodes in that of the task. -/
def homeOf (home : Name → Option Name → Nat) : Ev → Nat
  | .runStart _ _ => 0
  | .runEnd _ _ => 0
  | .taskStart r t => home r (some t)
  | .taskEnd r t _ => home r (some t)
  | .nodeStart r t _ _ => home r t
  | .nodeEnd r t _ _ => home r t

/-- The run an event belongs to. -/
def runOf : Ev → Name
  | .runStart r _ => r
  | .runEnd r _ => r
  | .taskStart r _ => r
  | .taskEnd r _ _ => r
  | .nodeStart r _ _ _ => r
  | .nodeEnd r _ _ _ => r

/-- A copy of the adapter was sent to the process while the run was open. -/
def Sent (as : List Act) (p : Nat) (r : Name) : Prop := ∃ a b, as = a ++ .fork p :: b ∧ Open (.run r) (events a)

/-- A distributed run: every task is executed in one process, which got its copy of the adapter, just once, during the run. -/
structure Distributed (home : Name → Option Name → Nat) (as : List Act) : Prop where
  valid : Valid (events as)
  fork_once : ∀ a p b, as = a ++ .fork p :: b → p ≠ 0 ∧ Act.fork p ∉ a
  at_home : ∀ a p e b, as = a ++ .hook p e :: b → p = homeOf home e ∧ (p ≠ 0 → Sent a p (runOf e))

end Verif.Tracing
