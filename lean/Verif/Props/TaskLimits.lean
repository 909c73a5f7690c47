import Verif.Props.Tasks

/-!
What goes wrong outside of the hypotheses of C16, C17, C18, C20, C23, C24: concrete calls of task-based execution with the
default grouping.  The modules are variations of the sample (`TaskSample`):

    def n(x: int) -> int: return x + 1
    def e(n: int) -> Parallelizable[int]: yield from range(n)
    def a(e: int) -> int: return e * 10
    def b(a: int, n: int) -> int: return a + n
    def c(b: Collect[int]) -> list: return b
    def d(c: list) -> list: return c
-/
namespace Verif.TaskLimits
open TaskSample

/-- The graph of some functions. -/
def graphOf (fs : List (Node Bool Va)) : Graph Bool Va :=
  match createFunctionGraph (fun _ _ => true) false [] false fs with
  | .ok g => g
  | .error _ => []

/-- The plan that `TaskBasedGraphExecutor.execute` makes (`taskBasedExecute` up to the loop). -/
def planFor (fs : List (Node Bool Va)) (finalVars : List Name) (overrides inputs : Dict Name Va) :
    List (TaskSpec Bool Va) :=
  match getUpstreamNodes ⟨graphOf fs, []⟩ finalVars (some inputs) (some overrides) with
  | .err _ _ => []
  | .ok vis => (createTaskPlan ((groupByRepeatableBlocks (listifyGraph ops (graphOf fs))
      (vis.nodes.filterMap (fun k => (listifyGraph ops (graphOf fs)).get? k))).getD []) finalVars overrides).getD []

/-- The run that follows. -/
def runFor (ex : Executors) (fs : List (Node Bool Va)) (finalVars : List Name) (overrides inputs : Dict Name Va)
    (cs : List Choice) : Out (Loop Bool Va) TaskErr :=
  runLoop ops (listifyGraph ops (graphOf fs)) ex cs (initLoop (planFor fs finalVars overrides inputs)
    (Dict.merge overrides inputs))

/-- The call. -/
def callFor (ex : Executors) (fs : List (Node Bool Va)) (finalVars : List Name) (overrides inputs : Dict Name Va)
    (cs : List Choice) : Except TaskRunErr (Dict Name Va) :=
  taskBasedExecute ops ex groupByRepeatableBlocks ⟨graphOf fs, []⟩ finalVars overrides inputs cs

/-- A function that returns its argument. -/
def pass (name p : Name) (kind : NodeKind) (isCollect : Bool) : Node Bool Va :=
  mk name kind [(p, isCollect)] (fun kw => .ok ((kw.get? p).getD (.i 0)))

/-- `fns` with a function whose name (given by a decorator) is a key of the result cache:

    @parameterize(**{"expand-e:0:b": {}})
    def hundred(n: int) -> int: return 100
    @parameterize(w={"p": source("expand-e:0:b")})
    def w(p: int, d: list) -> int: return p -/
def colonFns : List (Node Bool Va) :=
  fns ++ [mk "expand-e:0:b" .standard [("n", false)] (fun _ => .ok (.i 100)),
    mk "w" .standard [("expand-e:0:b", false), ("d", false)] (fun kw => .ok ((kw.get? "expand-e:0:b").getD (.i 0)))]

/-- **C24, violated for names with `:`.** The result of `expand-e:0:b`, which is 100, is overwritten by that of `b` for the
first element. -/
theorem C24_violated : callFor ex colonFns ["expand-e:0:b", "d"] [] cache (eager 20) =
    .ok [("expand-e:0:b", .i 2), ("d", .l [.i 2, .i 12])] := rfl

/-- **C16, violated (values).** The task `w` depends on the task `expand-e:0:b`, which reported 100, but is given 2. -/
theorem C16_violated_values : ∃ pre post t r,
    traceOf (runFor ex colonFns ["w"] [] cache (eager 20)) = pre ++ .submit t :: post ∧ t.id = "w" ∧
    "expand-e:0:b" ∈ t.baseDeps ∧ .done "expand-e:0:b" r ∈ pre ∧ r.get? "expand-e:0:b" = some (.i 100) ∧
    t.dynamicInputs.get? "expand-e:0:b" = some (.i 2) := by
  refine ⟨(traceOf (runFor ex colonFns ["w"] [] cache (eager 20))).take 16,
    (traceOf (runFor ex colonFns ["w"] [] cache (eager 20))).drop 17, ?_⟩
  refine ⟨_, _, rfl, rfl, by decide, List.mem_of_getElem? (i := 7) rfl, rfl, rfl⟩

/-- **C17, violated for an overridden collector.** In `execute(["b", "c"], overrides={"c": ...})` the collector depends on
nothing any more, is realized at the start and again when the expander is done: it is submitted twice. -/
theorem C17_violated : ¬ (submittedIds (traceOf (runFor ex fns ["b", "c"] [("c", .l [.i 5])] cache (eager 20)))).Nodup := by
  decide +kernel

/-- All of the submissions. -/
example : submittedIds (traceOf (runFor ex fns ["b", "c"] [("c", .l [.i 5])] cache (eager 20))) =
    ["collect-e", "x", "n", "expand-e", "collect-e", "expand-e.0.block-e", "expand-e.1.block-e"] := by decide +kernel

/-- `fns` with a function that uses a node of the block outside of it: `def q(a: int) -> int: return a`. -/
def useFns : List (Node Bool Va) := fns ++ [pass "q" "a" .standard false]

theorem runLoop_idle (g : Graph Bool Va) (ex : Executors) (cs : List Choice) {l : Loop Bool Va} (hq : l.sched.queue = [])
    (hf : l.futures = []) : runLoop ops g ex cs l = .ok l := by
  induction cs with
  | nil => rfl
  | cons c cs ih =>
    unfold runLoop
    split
    · rfl
    · have h1 : loopStep ops g ex c l = .ok l := by
        unfold loopStep releaseAndSubmit
        rw [hq]
        show forEach (pollOne ops g c) l.futures l = .ok l
        rw [hf]
        rfl
      rw [h1]
      exact ih

/-- **C18, violated for a block node used outside of its block.** The call `execute(["d", "q"])` never ends although every
task completes as soon as it is submitted. -/
theorem C18_violated_block_use : ∃ σ, FairSchedule σ ∧
    ∀ n, ¬ Ended (runFor ex useFns ["d", "q"] [] cache (prefixOf σ n)) := by
  refine ⟨fun _ => ⟨true, fun _ => .finished⟩, ⟨fun n id => ⟨n, Nat.le_refl n, rfl⟩, fun n => ⟨n, Nat.le_refl n, rfl⟩⟩, ?_⟩
  intro n
  have hpre : prefixOf (fun _ => (⟨true, fun _ => .finished⟩ : Choice)) n = eager n := by
    unfold prefixOf eager
    rw [List.map_const', List.length_range]
  rw [hpre]
  have hsmall : ∀ n < 12, (match runFor ex useFns ["d", "q"] [] cache (eager n) with
      | .ok l => (graphState l.sched).isTerminal | .err _ _ => true) = false := by decide +kernel
  have hlast : (match runFor ex useFns ["d", "q"] [] cache (eager 11) with
      | .ok l => l.sched.queue.length == 0 && l.futures.length == 0 | .err _ _ => false) = true := by decide +kernel
  have key : ∀ m < 12, ¬ Ended (runFor ex useFns ["d", "q"] [] cache (eager m)) := by
    intro m hm he
    have := hsmall m hm
    cases hr : runFor ex useFns ["d", "q"] [] cache (eager m) with
    | ok l => rw [hr] at this he; exact Bool.noConfusion ((show (graphState l.sched).isTerminal = false from this).symm.trans he)
    | err e l => rw [hr] at this; cases this
  by_cases hn : n < 12
  · exact key n hn
  · have hspl : eager n = eager 11 ++ eager (n - 11) := by
      unfold eager
      rw [List.replicate_append_replicate]
      congr 1
      omega
    unfold runFor at hlast key ⊢
    rw [hspl, runLoop_append]
    have hne := key 11 (by omega)
    cases hr : runLoop ops (listifyGraph ops (graphOf useFns)) ex (eager 11) (initLoop (planFor useFns ["d", "q"] [] cache)
        (Dict.merge [] cache)) with
    | err e l => rw [hr] at hlast; cases hlast
    | ok l =>
      rw [hr] at hlast hne
      simp only [Bool.and_eq_true, beq_iff_eq, List.length_eq_zero_iff] at hlast
      show ¬ Ended (runLoop ops _ ex (eager (n - 11)) l)
      rw [runLoop_idle _ _ _ hlast.1 hlast.2]
      exact hne

/-- The functions up to `e` with `def q(e: Collect[int]) -> list: return e`. -/
def directFns : List (Node Bool Va) := fns.take 2 ++ [pass "q" "e" .collect true]

/-- **C20, violated for a collector of the expander itself.** `e` yields 0 and 1; the `Collect` parameter receives
`[[0, 1]]`. -/
theorem C20_violated : callFor ex directFns ["q"] [] cache (eager 20) = .ok [("q", .l [.l [.i 0, .i 1]])] := rfl

/-- `fns` with another collector of the block: `def q(a: Collect[int]) -> list: return a`. -/
def twoFns : List (Node Bool Va) := fns ++ [pass "q" "a" .collect true]

/-- **C20, violated for two collectors of one expander.** The call raises KeyError: the collector `c` is never run. -/
theorem C20_violated_two : callFor ex twoFns ["d", "q"] [] cache (eager 20) = .error (.task (.keyError "c")) := rfl

/-- An empty list. -/
def isNil : Option Va → Bool
  | some (.l []) => true
  | _ => false

/-- Two collectors of an expander that yields nothing; `c1` raises for an empty list:

    def e() -> Parallelizable[int]: yield from []
    def b1(e: int) -> int: return 7
    def b2(e: int) -> int: return e
    def c1(b1: Collect[int]) -> int: return 5 // len(b1)
    def c2(b2: Collect[int]) -> list: return b2
    def f(c2: list, c1: int = 0) -> list: return [c1, c2] -/
def lostFns : List (Node Bool Va) :=
  [ mk "e" .expand [] (fun _ => .ok (.l [])), mk "b1" .standard [("e", false)] (fun _ => .ok (.i 7)),
    pass "b2" "e" .standard false,
    mk "c1" .collect [("b1", true)] (fun kw => if isNil (kw.get? "b1") then .error "ZeroDivisionError" else .ok (.i 5)),
    pass "c2" "b2" .collect true,
    { mk "f" .standard [] (fun kw => .ok (.l [(kw.get? "c1").getD (.i 0), (kw.get? "c2").getD (.i 0)])) with
      inputTypes := [("c1", (false, .optional)), ("c2", (false, .required))] } ]

/-- All tasks run in a pool. -/
def pooled : Executors := ⟨fun _ => false⟩

/-- The expander is slow; the first collector is still running when the second is submitted. -/
def lostSchedule : List Choice :=
  List.replicate 2 ⟨true, fun id => if id = "expand-e" then .pending else .finished⟩ ++
  [⟨true, fun id => if id = "collect-e" then .pending else .finished⟩] ++ eager 4

/-- **C23, violated for two collectors of one expander.** Both collectors run under the same task id; the one submitted later
replaces the future of the first, whose failure is never seen: the call returns a value. -/
theorem C23_violated :
    callFor pooled lostFns ["f"] [("b1", .i 3)] [] lostSchedule = .ok [("f", .l [.i 5, .l []])] ∧
    ∃ t e, .submit t ∈ traceOf (runFor pooled lostFns ["f"] [("b1", .i 3)] [] lostSchedule) ∧
      executeTask (listifyGraph ops (graphOf lostFns)) t = .error e ∧
      ∀ c ∈ lostSchedule, ∀ id, c.obs id ≠ .silentFail := by
  refine ⟨rfl, _, _, List.mem_of_getElem? (i := 3) rfl, rfl, ?_⟩
  intro c hc id
  unfold lostSchedule eager at hc
  simp only [List.mem_append, List.mem_replicate, List.mem_singleton] at hc
  rcases hc with (⟨_, rfl⟩ | rfl) | ⟨_, rfl⟩
  · simp only; split <;> simp
  · simp only; split <;> simp
  · simp

end Verif.TaskLimits
