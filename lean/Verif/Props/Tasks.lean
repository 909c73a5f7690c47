import Verif.Proofs.AnyPlan
import Verif.Proofs.PlainPlan
import Verif.Props.TaskSample

/-!
Properties of task-based execution of a plan: C16, C17, C18, C20, C23, C24.  A run is `runLoop` from `initLoop` under an
arbitrary finite schedule (what the executors answer at every polling); `c0` is what the result cache is prehydrated
with.  `hlaw`: the list made of some values contains these values.
-/
namespace Verif
variable {T V : Type}
variable {ops : TaskOps T V} {g : Graph T V} {specs : List (TaskSpec T V)} {ex : Executors} {c0 : Dict Name V}

/-- **C16, order.** Whatever the plan and the schedule, also when the run raises: when a task is handed to an executor,
everything it depends on has been reported successful before.  (No task may be called `.`: the scheduler looks up the
characters of a dependency inside of a block.) -/
theorem C16_dependencies_done (hlaw : ∀ l, ops.toList (ops.ofList l) = some l) (hdot : ∀ s ∈ specs, s.baseId ≠ ".")
    (cs : List Choice) {pre post : List (Event T V)} {t : Task T V}
    (htr : traceOf (runLoop ops g ex cs (initLoop specs c0)) = pre ++ .submit t :: post) :
    t.toTaskSpec ∈ specs ∧ ReadyToRun ops specs pre t.toTaskSpec t.id :=
  (run_any_trace hlaw c0 cs).ready hdot htr

/-- **C16, values.** The values bound to a task when it is submitted are legitimate.  Missing: plans that are not `PlanOk` or
whose names are not `KeysOk` (see `C16_violated_values`). -/
theorem C16_values_legitimate_partial (hlaw : ∀ l, ops.toList (ops.ofList l) = some l) (hp : PlanOk specs) (hk : KeysOk specs)
    (hc0 : HasRepeated specs → ∀ key v, c0.get? key = some v → ColonFree key) (cs : List Choice) {pre post : List (Event T V)} {t : Task T V}
    (htr : traceOf (runLoop ops g ex cs (initLoop specs c0)) = pre ++ .submit t :: post) {k : Name} {v : V}
    (hv : t.dynamicInputs.get? k = some v) : Legitimate ops specs c0 pre t.toTaskSpec t.id k v := by
  obtain ⟨_, hs⟩ := run_trace (g := g) (ex := ex) hlaw hp hk hc0 cs
  obtain ⟨t0, h1, h2, _, h4⟩ := hs pre t post htr
  rw [h2.spec_eq, h2.id_eq]
  exact legitimate_of_good hp hk h1 (h4.good k v hv)

/-- **C16, values are passed on.** If a node of the task takes `k` from outside of the task and a task it depends on reported
a result for `k`, then a value is bound to `k`; for a task that is neither repeated nor a collector it is that result.  Missing: as before. -/
theorem C16_results_passed_partial (hlaw : ∀ l, ops.toList (ops.ofList l) = some l) (hp : PlanOk specs) (hk : KeysOk specs)
    (hc0 : HasRepeated specs → ∀ key v, c0.get? key = some v → ColonFree key) (cs : List Choice) {pre post : List (Event T V)} {t : Task T V}
    (htr : traceOf (runLoop ops g ex cs (initLoop specs c0)) = pre ++ .submit t :: post)
    {n : Node T V} (hn : n ∈ t.nodes) (hno : t.overrides.get? n.name = none) {k : Name} (hkd : k ∈ n.dependencies)
    (hko : t.overrides.get? k = none) (hkn : k ∉ t.nodes.map (·.name))
    {p : TaskSpec T V} (hps : p ∈ specs) (hpm : ∀ e, ¬ p.MemberOf e) (hpd : p.baseId ∈ t.baseDeps)
    {r : Dict Name V} {w : V} (hr : .done p.baseId r ∈ pre) (hw : r.get? k = some w) :
    ∃ v, t.dynamicInputs.get? k = some v ∧ (t.spawning = none → p.storedValue ops k w = some v) := by
  obtain ⟨_, hs⟩ := run_trace (g := g) (ex := ex) hlaw hp hk hc0 cs
  obtain ⟨t0, h1, h2, h3, h4⟩ := hs pre t post htr
  have hspec := h2.spec_eq
  obtain ⟨_, _, iv3⟩ := getInputVars_spec g t0.toTaskSpec
  have hvar := iv3 k ⟨n, by rw [← hspec]; exact hn, by rw [← hspec]; exact hno, .inr ⟨hkd, by rw [← hspec]; exact hko,
    .inr (by rw [← hspec]; exact hkn)⟩⟩
  have hbd : p.baseId ∈ t0.baseDeps := by
    have : t.baseDeps = t0.baseDeps := congrArg (·.baseDeps) hspec
    rw [← this]; exact hpd
  have hdep : p.baseId ∈ t0.deps := by
    cases h1 with
    | static s a b => exact (mkTask_deps s none none [] _).2 hbd
    | inst s e x items i item a b c d => exact (instTask_deps hp a b _).2 hbd
    | coll s e x items a b c =>
      refine (collTask_deps _).2 (.inr ⟨hbd, ?_⟩)
      rintro ⟨m, hm, hme, he⟩
      exact hpm e (spec_unique hp hm hps he ▸ hme)
  have hex : ∃ v, t.dynamicInputs.get? k = some v := by
    rcases hvar with hv | hv
    · rcases h4.required k hv with h | ⟨v, h⟩
      · exact h
      · have hto : t.overrides = t0.overrides := congrArg (·.overrides) hspec
        rw [← hto, hko] at h
        cases h
    · exact h4.optional k hv (.inr ⟨p, hps, hdep, r, w, hr, hw⟩)
  obtain ⟨v, hv⟩ := hex
  refine ⟨v, hv, fun hsp => ?_⟩
  have hleg := C16_values_legitimate_partial hlaw hp hk hc0 cs htr hv
  rcases hleg with ⟨e, _, _, he, _⟩ | ho | ⟨e, _, _, _, he, _⟩ | ⟨_, hd⟩
  · rw [TaskSpec.MemberOf, hsp] at he; cases he.1
  · rw [hko] at ho; cases ho
  · rw [TaskSpec.CollectorOf, hsp] at he; cases he.1
  · exact hd p hps hpd hpm r w hr hw

/-- The submissions of the sample run in which the first parallel branch finishes last. -/
example : submittedIds (traceOf (runLoop TaskSample.ops TaskSample.g TaskSample.ex TaskSample.reversed
    (initLoop TaskSample.specs TaskSample.cache))) =
    ["x", "n", "expand-e", "expand-e.0.block-e", "expand-e.1.block-e", "collect-e", "d"] := by decide

example : doneIds (traceOf (runLoop TaskSample.ops TaskSample.g TaskSample.ex TaskSample.reversed
    (initLoop TaskSample.specs TaskSample.cache))) =
    ["x", "n", "expand-e", "expand-e.1.block-e", "expand-e.0.block-e", "collect-e", "d"] := by decide

example (cs : List Choice) {pre post : List (Event Bool TaskSample.Va)} {t : Task Bool TaskSample.Va}
    (h : traceOf (runLoop TaskSample.ops TaskSample.g TaskSample.ex cs (initLoop TaskSample.specs TaskSample.cache)) =
      pre ++ .submit t :: post) : ReadyToRun TaskSample.ops TaskSample.specs pre t.toTaskSpec t.id :=
  (C16_dependencies_done TaskSample.ops_law (by decide) cs h).2

/-- **C17, at most once.** No task is submitted twice, whatever the schedule, also when the run raises.  Missing: plans that
are not `PlanOk` (see `C17_violated`). -/
theorem C17_submitted_at_most_once_partial (hlaw : ∀ l, ops.toList (ops.ofList l) = some l) (hp : PlanOk specs)
    (hk : KeysOk specs) (hc0 : HasRepeated specs → ∀ key v, c0.get? key = some v → ColonFree key) (cs : List Choice) :
    (submittedIds (traceOf (runLoop ops g ex cs (initLoop specs c0)))).Nodup :=
  (run_trace (g := g) (ex := ex) hlaw hp hk hc0 cs).1.sub_nodup

theorem expected_of_realized {tr : List (Event T V)} {t0 : Task T V} (h : Realized ops specs tr t0) :
    Expected ops specs tr t0.id := by
  cases h with
  | static s h1 h2 => exact .inl ⟨s, h1, .inl h2, rfl⟩
  | inst s e x items i item h1 h2 h3 h4 =>
    have hi : i < items.length := by
      rw [List.getElem?_eq_some_iff] at h4
      exact h4.1
    exact .inr ⟨s, h1, e, x, items, i, h2, h3, hi, rfl⟩
  | coll s e x items h1 h2 h3 => exact .inl ⟨s, h1, .inr h2.2, rfl⟩

/-- **C17, exactly once.** When the run ends successfully, the tasks submitted, and the tasks reported successful, are
exactly the expected ones: every task that is not repeated, and the copies of the repeated tasks for every element.
Missing: plans that are not `PlanLive`. -/
theorem C17_submitted_exactly_once_partial (hlaw : ∀ l, ops.toList (ops.ofList l) = some l) (hp : PlanLive specs)
    (hk : KeysOk specs) (hc0 : HasRepeated specs → ∀ key v, c0.get? key = some v → ColonFree key) (cs : List Choice) {l : Loop T V}
    (hrun : runLoop ops g ex cs (initLoop specs c0) = .ok l) (hs : graphState l.sched = .successful) :
    (submittedIds l.trace).Nodup ∧ (doneIds l.trace).Nodup ∧
    (∀ id, id ∈ submittedIds l.trace ↔ Expected ops specs l.trace id) ∧
    ∀ id, Done l.trace id ↔ Expected ops specs l.trace id := by
  have ha := (run_ainv (g := g) (ex := ex) hlaw hp.toPlanOk hk hc0 cs).1 l hrun
  have hL := ha.loop
  have hall := hL.success_all hs
  have hdone := hL.all_done hp (fun id t h => .inr (hall id t h))
  have key : ∀ id, Expected ops specs l.trace id → stOf l.sched id = .successful := by
    rintro id (⟨s, h1, h2, rfl⟩ | ⟨m, h1, e, x, items, i, h2, h3, h4, rfl⟩)
    · exact (hdone s h1).1 h2
    · obtain ⟨x', items', h5, h6⟩ := (hdone m h1).2 e h2
      obtain ⟨_, rfl⟩ := h5.unique hp.toPlanOk hL.done_nodup h3
      exact h6 i h4
  have sub : ∀ id, id ∈ submittedIds l.trace → Expected ops specs l.trace id := by
    intro id hid
    obtain ⟨ev, h1, h2⟩ := List.mem_filterMap.1 hid
    cases ev with
    | done => cases h2
    | submit t =>
      simp only [Option.some.injEq] at h2
      subst h2
      obtain ⟨pre, post, hpp⟩ := List.append_of_mem h1
      obtain ⟨t0, h3, h4, _⟩ := hL.submit_ok pre t post hpp
      rw [h4.id_eq]
      refine expected_of_realized (h3.mono ?_)
      intro id r h
      rw [hpp]; simp [h]
  refine ⟨hL.sub_nodup, hL.done_nodup, fun id => ⟨sub id, fun h => ?_⟩, fun id => ⟨fun h => ?_, fun h => ?_⟩⟩
  · exact (hL.sub_iff id).2 (.inr (.inl (key id h)))
  · exact sub id ((hL.sub_iff id).2 (.inr (.inl ((hL.done_iff id).2 h))))
  · exact (hL.done_iff id).1 (key id h)

/-- The sample run ends successfully. -/
example : ∃ l, runLoop TaskSample.ops TaskSample.g TaskSample.ex TaskSample.reversed
    (initLoop TaskSample.specs TaskSample.cache) = .ok l ∧ graphState l.sched = .successful := ⟨_, rfl, by decide⟩

/-- **C18, progress.** As long as the run is not over there is a task queued or in an executor.  Missing: plans that are not
`PlanLive` (see `C18_violated_empty`, `C18_violated_block_use`). -/
theorem C18_never_stuck_partial (hlaw : ∀ l, ops.toList (ops.ofList l) = some l) (hp : PlanLive specs)
    (hk : KeysOk specs) (hc0 : HasRepeated specs → ∀ key v, c0.get? key = some v → ColonFree key) (cs : List Choice) {l : Loop T V}
    (hrun : runLoop ops g ex cs (initLoop specs c0) = .ok l) (hne : ¬ Ended (.ok l)) :
    l.sched.queue ≠ [] ∨ l.futures ≠ [] :=
  ((run_ainv (g := g) (ex := ex) hlaw hp.toPlanOk hk hc0 cs).1 l hrun).loop.progress hp (by simpa [Ended] using hne)

/-- **C18, termination.** Under a fair schedule the run ends after finitely many rounds.  Missing: as before. -/
theorem C18_terminates_partial (hlaw : ∀ l, ops.toList (ops.ofList l) = some l) (hp : PlanLive specs)
    {σ : Nat → Choice} (hf : FairSchedule σ) :
    ∃ n, Ended (runLoop ops g ex (prefixOf σ n) (initLoop specs c0)) :=
  (LInv.init hp.toPlanOk c0).ends hlaw hp hf

/-- A fair schedule in which every odd round observes nothing and has no room. -/
def everyOther (n : Nat) : Choice := if n % 2 = 0 then ⟨true, fun _ => .finished⟩ else ⟨false, fun _ => .pending⟩

theorem everyOther_fair : FairSchedule everyOther := by
  constructor
  · intro n id
    exact ⟨2 * n, by omega, by simp [everyOther]⟩
  · intro n
    exact ⟨2 * n, by omega, by simp [everyOther]⟩

example : ∃ n, Ended (runLoop TaskSample.ops TaskSample.g TaskSample.ex (prefixOf everyOther n)
    (initLoop TaskSample.specs TaskSample.cache)) :=
  C18_terminates_partial TaskSample.ops_law TaskSample.plan_live everyOther_fair

/-- **C18, violated for nothing to do.** With no tasks (an `execute` call that requests nothing) the run never ends,
whatever the schedule. -/
theorem C18_violated_empty (cs : List Choice) :
    ∃ l, runLoop ops g ex cs (initLoop [] c0) = .ok l ∧ ¬ Ended (.ok l) := by
  refine ⟨initLoop [] c0, ?_, by simp [Ended, initLoop, initSched, graphState, TaskState.isTerminal]⟩
  induction cs with
  | nil => rfl
  | cons c cs ih =>
    have h1 : (graphState (initLoop ([] : List (TaskSpec T V)) c0).sched).isTerminal = false := rfl
    have h2 : loopStep ops g ex c (initLoop [] c0) = .ok (initLoop [] c0) := rfl
    unfold runLoop
    rw [h1, h2]
    exact ih

/-- **C20.** When a collector is submitted, its `Collect` parameter `arg` (a node of the repeated task `m`) is bound to the
list with, for every element in the order yielded, the result of its branch.  Missing: a parameter that collects the
expander itself (`C20_violated`), plans that are not `PlanOk`. -/
theorem C20_collect_in_order_partial (hlaw : ∀ l, ops.toList (ops.ofList l) = some l) (hp : PlanOk specs) (hk : KeysOk specs)
    (hc0 : HasRepeated specs → ∀ key v, c0.get? key = some v → ColonFree key) (cs : List Choice) {pre post : List (Event T V)} {t : Task T V}
    (htr : traceOf (runLoop ops g ex cs (initLoop specs c0)) = pre ++ .submit t :: post)
    {e : Name} (hcoll : t.CollectorOf e) {c : Node T V} (hc : collectorNode t.nodes = some c) {arg : Name}
    (harg : collectDependency ops c = some arg) {m : TaskSpec T V} (hm : m ∈ specs) (hme : m.MemberOf e)
    (hmd : m.baseId ∈ t.baseDeps) (hmn : ∃ n ∈ m.nodes, n.name = arg) (hfree : c0.get? arg = none) :
    ∃ x items vs, Yielded ops specs pre e x items ∧ t.dynamicInputs.get? arg = some (ops.ofList vs) ∧
      vs.length = items.length ∧ ∀ i < items.length, ∃ r v, .done (instanceId e i m.baseId) r ∈ pre ∧
        r.get? arg = some v ∧ vs[i]? = some v := by
  obtain ⟨_, hs⟩ := run_trace (g := g) (ex := ex) hlaw hp hk hc0 cs
  obtain ⟨t0, h1, h2, _, h4⟩ := hs pre t post htr
  have hspec := h2.spec_eq
  have hpur : t0.purpose = .gather := by
    have : t.purpose = t0.purpose := congrArg (·.purpose) hspec
    rw [← this]; exact hcoll.2
  have hga : gatherArg ops t0.toTaskSpec = some arg := by
    unfold gatherArg
    rw [← hspec, hc]
    exact harg
  obtain ⟨arg', v, ha, hv⟩ := h4.gather hpur
  rw [hga] at ha
  cases ha
  have hts : t.toTaskSpec ∈ specs := by rw [hspec]; exact h1.spec
  rcases h4.good arg v hv with h | ⟨h, _⟩ | ⟨_, _, s, e', x, items, vs, k1, k2, k3, k4, k5, k6⟩ | ⟨h5, h6, _⟩
  · exfalso
    cases h1 with
    | static s a b => cases h
    | inst s e x items i item a b c d => exact b.2.2 hpur
    | coll s e x items a b c => cases h
  · exact absurd hpur h
  · have hse : t.toTaskSpec = s := by rw [hspec, k3]; rfl
    have hee : e' = e := by
      have := k2.1
      rw [← hse, hcoll.1] at this
      cases this; rfl
    subst hee
    obtain ⟨g1, g2⟩ := k6 m hm hme (by rw [← hse]; exact hmd) hmn
    exact ⟨x, items, vs, k4, by rw [hv, k5], g1, g2⟩
  · exfalso
    rcases h6 with h6 | h6
    · rw [hfree] at h6; cases h6
    · obtain ⟨id, r, t1, k, w, p1, p2, p3, p4, p5, p6⟩ := h6
      have hcf := fun hr => inputVar_plain hk hr h1.spec h5
      -- the producer is a task that contains `arg`, so it is a copy of `m`; but those have other keys
      have hprod : ∃ n ∈ t1.nodes, n.name = k := by
        obtain ⟨pre1, post1, hpp⟩ := List.append_of_mem p1
        have hT := (run_trace (g := g) (ex := ex) hlaw hp hk hc0 cs).1
        rw [htr, hpp] at hT
        obtain ⟨ts, q1, q2, q3⟩ := hT.done_ok pre1 id r (post1 ++ .submit t :: post) (by simp)
        obtain ⟨pre2, post2, hq⟩ := List.append_of_mem q1
        obtain ⟨t2, u1, u2, _⟩ := hT.submit_ok pre2 ts (post2 ++ .done id r :: post1 ++ .submit t :: post)
          (by rw [hq]; simp)
        obtain ⟨n, hn, hnk⟩ := Realized.result_node hk u1 u2 q3 p4
        have hid : t2.id = t1.id := by rw [← u2.id_eq, q2, p3]
        have hcore := (realized_same hp u1 p2 hid).1
        exact ⟨n, by rw [← hcore]; exact hn, hnk⟩
      obtain ⟨n, hn, rfl⟩ := hprod
      obtain ⟨n', hn', hne⟩ := hmn
      cases p2 with
      | static s a b =>
        have hkk : arg = n.name := p5
        have := hk.node_disjoint s a m hm n hn n' hn' (by rw [hne, hkk])
        have := spec_unique hp a hm this
        rw [this, hme.1] at b; cases b
      | inst s e x items i item a b c d => exact absurd p5.symm (formatKey_inst_plain (hcf ⟨s, a, e, b⟩))
      | coll s e x items a b c =>
        have hkk : arg = n.name := p5
        have := hk.node_disjoint s a m hm n hn n' hn' (by rw [hne, hkk])
        have := spec_unique hp a hm this
        rw [this] at b
        exact hme.2.2 b.2

/-- The collector of the sample gets the results of the two branches in order though the second finishes first. -/
example : (traceOf (runLoop TaskSample.ops TaskSample.g TaskSample.ex TaskSample.reversed
    (initLoop TaskSample.specs TaskSample.cache))).filterMap (fun ev => match ev with
      | .submit t => if t.id = "collect-e" then t.dynamicInputs.get? "b" else none
      | .done _ _ => none) = [.l [.i 2, .i 12]] := rfl

/-- The hypotheses of `C20_collect_in_order_partial` are met by the collector of the sample. -/
example : ∃ s ∈ TaskSample.specs, ∃ c m, s.CollectorOf "expand-e" ∧ collectorNode s.nodes = some c ∧
    collectDependency TaskSample.ops c = some "b" ∧ m ∈ TaskSample.specs ∧ m.MemberOf "expand-e" ∧
    m.baseId ∈ s.baseDeps ∧ (∃ n ∈ m.nodes, n.name = "b") ∧ TaskSample.cache.get? "b" = none := by
  have h : ∃ s ∈ TaskSample.specs, (s.spawning = some "expand-e" ∧ s.purpose = .gather) ∧
      ((collectorNode s.nodes).bind (collectDependency TaskSample.ops)) = some "b" ∧
      ∃ m ∈ TaskSample.specs, (m.spawning = some "expand-e" ∧ m.purpose ≠ .expand ∧ m.purpose ≠ .gather) ∧
        m.baseId ∈ s.baseDeps ∧ ∃ n ∈ m.nodes, n.name = "b" := by decide
  obtain ⟨s, hs, h1, h2, m, hm, h3, h4, h5⟩ := h
  rw [Option.bind_eq_some_iff] at h2
  obtain ⟨c, hc, hd⟩ := h2
  exact ⟨s, hs, c, m, h1, hc, hd, hm, h3, h4, h5, rfl⟩

/-- **C23.** With executors that raise what their tasks raise (all executors of the library), whatever the plan and the
schedule: a run that ends without raising has reported every submitted task as successful, with the results of that
task's execution.  So if any submitted task fails, `execute` raises.  Missing: runs in which one task id stands for tasks
with different outcomes (`C23_violated`). -/
theorem C23_failing_task_raises_partial (hlaw : ∀ l, ops.toList (ops.ofList l) = some l) (cs : List Choice)
    (hcs : ∀ c ∈ cs, ∀ id, c.obs id ≠ .silentFail) {l : Loop T V}
    (hrun : runLoop ops g ex cs (initLoop specs c0) = .ok l) (hend : Ended (.ok l)) (hsame : SameWork g l.trace) :
    ∀ t, .submit t ∈ l.trace → ∃ r, executeTask g t = .ok r ∧ .done t.id r ∈ l.trace := by
  have hL := run_any (sf := False) (g := g) (specs := specs) (ex := ex) hlaw c0 cs
    (fun c hc id h => (hcs c hc id h).elim)
  rw [hrun] at hL
  replace hL : AnyInv False ops g specs l := hL
  have hnf := runLoop_noFail (ops := ops) (g := g) (ex := ex) cs hcs (init_noFail specs c0) hrun
  have hs : graphState l.sched = .successful := by
    have hend' : (graphState l.sched).isTerminal = true := hend
    unfold graphState at hend' ⊢
    split at hend'
    · cases hend'
    · split at hend'
      · rename_i h1 h2; rw [if_neg h1, if_pos h2]
      · split at hend'
        · rename_i h3
          rw [List.any_eq_true] at h3
          obtain ⟨p, hp1, hp2⟩ := h3
          exact absurd (Dict.get?_of_mem hL.states_nodup hp1) (by rw [beq_iff_eq.1 hp2]; exact hnf p.1)
        · cases hend'
  intro t ht
  rcases hL.kept hsame (fun h => h) t ht with h | ⟨h1, h2⟩
  · exact h
  · exfalso
    obtain ⟨f, hf⟩ := Dict.mem_keys_iff.1 h1
    obtain ⟨_, hk⟩ := hL.fut_ok _ f hf
    obtain ⟨st, hst⟩ := Dict.mem_keys_iff.1 hk
    have h3 := (graphState_successful_iff.1 hs).2 _ (Dict.get?_mem hst)
    apply h2
    unfold stOf
    rw [hst]
    exact h3

/-- In the plans covered by C17 the condition of `C23_failing_task_raises_partial` holds. -/
theorem C23_same_work_partial (hlaw : ∀ l, ops.toList (ops.ofList l) = some l) (hp : PlanOk specs) (hk : KeysOk specs)
    (hc0 : HasRepeated specs → ∀ key v, c0.get? key = some v → ColonFree key) (cs : List Choice) :
    SameWork g (traceOf (runLoop ops g ex cs (initLoop specs c0))) := fun _ _ h h' he => by
  rw [submit_unique (C17_submitted_at_most_once_partial hlaw hp hk hc0 cs) h h' he]

/-- The sample with a function `d` that raises: the run raises. -/
example : match runLoop TaskSample.ops TaskSample.gBad TaskSample.ex (TaskSample.eager 20)
    (initLoop TaskSample.specsBad TaskSample.cache) with
    | .err (.exec t _) l => t = "d" ∧ (submittedIds l.trace).getLast? = some "d"
    | _ => False := ⟨rfl, rfl⟩

/-- Coordinates under which the library stores results: outside of any expansion, or for element `i` of expander task
`e`. -/
inductive Coord where
  | top
  | inst (e : Name) (i : Nat)

/-- Group id of the coordinates. -/
def Coord.group : Coord → Option Name
  | .top => none
  | .inst _ i => some (toString i)

/-- Spawning task id of the coordinates. -/
def Coord.spawning : Coord → Option Name
  | .top => none
  | .inst e _ => some e

/-- Names in the coordinates contain no `:`. -/
def Coord.Plain : Coord → Prop
  | .top => True
  | .inst e _ => ColonFree e

/-- **C24.** What is written under some coordinates is read back, unless it is overwritten under the same coordinates and
the same node name.  Missing: names with `:` (`C24_violated`). -/
theorem C24_isolated_partial {c r r' : Dict Name V} {x y : Coord} (hx : x.Plain) (hy : y.Plain)
    (hr : r.keys.Nodup) (hkr : ∀ k ∈ r.keys, ColonFree k) (hkr' : ∀ k ∈ r'.keys, ColonFree k) {k : Name} {v : V}
    (hv : r.get? k = some v) (hsep : x = y → k ∉ r'.keys) (opt : Bool) :
    cacheRead (cacheWrite (cacheWrite c r x.group x.spawning) r' y.group y.spawning) x.group x.spawning opt [k] =
      .ok [(k, v)] := by
  have hget : (cacheWrite (cacheWrite c r x.group x.spawning) r' y.group y.spawning).get?
      (formatKey x.group x.spawning k) = some v := by
    rw [cacheWrite_other]
    · exact (cacheWrite_spec hr k).1 v hv
    · intro k' hk' he
      have hcf := hkr k (Dict.mem_keys_iff.2 ⟨v, hv⟩)
      have hcf' := hkr' k' hk'
      cases x with
      | top =>
        cases y with
        | top =>
          have : k' = k := he
          exact hsep rfl (this ▸ hk')
        | inst e i => exact formatKey_inst_plain hcf he
      | inst e i =>
        cases y with
        | top => exact formatKey_inst_plain hcf' he.symm
        | inst e' i' =>
          obtain ⟨h1, h2, h3⟩ := formatKey_inst_inj hy hx (colonFree_nat _) (colonFree_nat _) he
          subst h1
          have := toString_nat_inj h2
          subst this
          exact hsep rfl (h3 ▸ hk')
  unfold cacheRead
  rw [hget]
  rfl

example : cacheRead (cacheWrite (cacheWrite ([] : Dict Name Nat) [("b", 7)] (Coord.inst "expand-e" 1).group
      (Coord.inst "expand-e" 1).spawning) [("b", 8)] (Coord.inst "expand-e" 11).group
      (Coord.inst "expand-e" 11).spawning) (some "1") (some "expand-e") false ["b"] = .ok [("b", 7)] :=
  C24_isolated_partial (x := .inst "expand-e" 1) (y := .inst "expand-e" 11) (by unfold Coord.Plain ColonFree; decide)
    (by unfold Coord.Plain ColonFree; decide) (by decide) (by unfold ColonFree; decide) (by unfold ColonFree; decide)
    rfl (by intro h; cases h) false

/-- Without the condition on `:` results do get mixed up: a node named `expand-e:1:b`. -/
example : cacheRead (cacheWrite (cacheWrite ([] : Dict Name Nat) [("b", 7)] (some "1") (some "expand-e"))
      [("expand-e:1:b", 8)] none none) (some "1") (some "expand-e") false ["b"] = .ok [("b", 8)] := rfl

/-- **C24, along runs.** At any time the result cache holds all results reported so far, each under its task's key.
Missing: as for C16. -/
theorem C24_results_kept_partial (hlaw : ∀ l, ops.toList (ops.ofList l) = some l) (hp : PlanOk specs) (hk : KeysOk specs)
    (hc0 : HasRepeated specs → ∀ key v, c0.get? key = some v → ColonFree key) (cs : List Choice) {l : Loop T V}
    (hrun : runLoop ops g ex cs (initLoop specs c0) = .ok l) {pre post : List (Event T V)} {t : Task T V}
    (htr : l.trace = pre ++ .submit t :: post) {r : Dict Name V} (hd : .done t.id r ∈ l.trace) {k : Name} {w : V}
    (hw : r.get? k = some w) :
    ∃ v, t.storedValue ops k w = some v ∧ l.sched.cache.get? (formatKey t.groupId t.spawningTaskId k) = some v := by
  have hA := (run_ainv (g := g) (ex := ex) hlaw hp hk hc0 cs).1 l hrun
  have hst : stOf l.sched t.id = .successful := (hA.loop.done_iff _).2 ⟨r, hd⟩
  cases hpool : l.sched.pool.get? t.id with
  | none => rw [hA.loop.pool_none _ hpool] at hst; cases hst
  | some t1 =>
    obtain ⟨v, h1, h2⟩ := hA.cache.stored t.id r t1 k w hd hpool hw
    obtain ⟨t0, a, b, _⟩ := hA.loop.submit_ok pre t post htr
    obtain ⟨c, d⟩ := hA.loop.pool_ok _ _ hpool
    have hid : t1.id = t0.id := by rw [c, b.id_eq]
    have hspec : t1.toTaskSpec = t.toTaskSpec := by
      rw [b.spec_eq]; exact (realized_same hp d a hid).2
    have hcoord := realized_coord hp d a hid
    refine ⟨v, by rw [← hspec]; exact h1, ?_⟩
    rw [b.2.1, b.2.2, ← hcoord.1, ← hcoord.2]
    exact h2

example : match runLoop TaskSample.ops TaskSample.g TaskSample.ex TaskSample.reversed
    (initLoop TaskSample.specs TaskSample.cache) with
    | .ok l => l.sched.cache.keys = ["x", "n", "e", "expand-e:1:b", "expand-e:0:b", "c", "d"]
    | .err _ _ => False := rfl

end Verif
