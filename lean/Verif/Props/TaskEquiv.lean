import Verif.Proofs.PlainRun2
import Verif.Proofs.Groupings
import Verif.Props.Execution
import Verif.Props.TaskSample
import Verif.Props.Tasks

/-! C19: task-based execution of graphs without `Parallelizable` agrees with in-memory execution. -/
namespace Verif
variable {T V : Type}

/-- A grouping strategy that partitions the nodes it is given into ordinary tasks, without cyclic dependencies between
them.  (`C50` proves this of the strategies of the library.) -/
def PlainStrategy (group : Graph T V → List (Node T V) → Option (List (NodeGroup T V))) : Prop :=
  ∀ g nodes, GroupInput nodes → nodes ≠ [] → (∀ n ∈ nodes, n.kind ≠ .expand ∧ n.kind ≠ .collect) →
    ∃ groups, group g nodes = some groups ∧ PlainGroups nodes groups

/-- The calls considered: at least one node is requested and only nodes are; no `Parallelizable`/`Collect`;
where a name is given both as input (or config) and override the values agree (`C21_violated` shows what happens
otherwise). -/
structure PlainCall (fg : FnGraph T V) (finalVars : List Name) (overrides inputs : Dict Name V) : Prop where
  graph : DriverGraph fg
  acyclic : Acyclic fg.nodes
  config_nodup : fg.config.keys.Nodup
  inputs_nodup : inputs.keys.Nodup
  plain : ∀ k n, fg.nodes.get? k = some n → n.kind ≠ .expand ∧ n.kind ≠ .collect
  requested : ∀ k ∈ finalVars, ∃ n, fg.nodes.get? k = some n
  nonempty : finalVars ≠ []
  agree : ∀ k v w, (fg.config.merge inputs).get? k = some v → overrides.get? k = some w → v = w

variable {ops : TaskOps T V} {ex : Executors} {group : Graph T V → List (Node T V) → Option (List (NodeGroup T V))}
  {fg : FnGraph T V} {finalVars : List Name} {overrides inputs : Dict Name V}

theorem PlainCall.listify (hc : PlainCall fg finalVars overrides inputs) : listifyGraph ops fg.nodes = fg.nodes := by
  unfold listifyGraph
  have : ∀ p ∈ fg.nodes, (p.1, listifyNode ops p.2) = p := by
    intro p hp
    have hg := Dict.get?_of_mem hc.graph.wf.keys_nodup (k := p.1) (v := p.2) hp
    unfold listifyNode
    rw [if_neg (hc.plain _ _ hg).1]
  conv => rhs; rw [← List.map_id fg.nodes]
  exact List.map_congr_left this

/-- What happens before the loop. -/
theorem PlainCall.setup (hc : PlainCall fg finalVars overrides inputs) (hgs : PlainStrategy group)
    (hdisj : ∀ k ∈ inputs.keys, k ∉ fg.config.keys) :
    ∃ nodes groups specs,
      PlainCtx fg.nodes (fg.config.merge inputs) overrides (Dict.merge overrides (fg.config.merge inputs)) finalVars nodes
        groups specs ∧ PlanLive specs ∧
      (∀ k ∈ finalVars, ∃ n ∈ nodes, n.name = k) ∧
      (∀ n ∈ nodes, ∃ r ∈ finalVars,
        Reaches (RunEdge fg.nodes (fg.config.merge inputs) overrides) r n.name) ∧
      ∀ cs, taskBasedExecute ops ex group fg finalVars overrides inputs cs =
        match runLoop ops fg.nodes ex cs (initLoop specs (Dict.merge overrides (fg.config.merge inputs))) with
        | .err e _ => .error (.task e)
        | .ok l => if (graphState l.sched).isTerminal then
            match cacheRead l.sched.cache none none false finalVars with
            | .error e => .error (.task e)
            | .ok r => .ok r
          else .error .running := by
  have hw := hc.graph.wf
  have halln : (fg.config.merge inputs).keys.Nodup := Dict.merge_keys_nodup hc.config_nodup inputs
  have hcomb : combineConfigAndInputs fg.config inputs = .ok (fg.config.merge inputs) := by
    unfold combineConfigAndInputs
    have : inputs.keys.filter (fun k => fg.config.has k) = [] := by
      rw [List.filter_eq_nil_iff]
      intro k hk hcc
      exact hdisj k hk ((Dict.has_iff _ _).1 hcc)
    simp [this]
  have hsame : ∀ k, (fg.config.merge (fg.config.merge inputs)).get? k = (fg.config.merge inputs).get? k := by
    intro k
    rw [Dict.get?_merge _ _ halln, Dict.get?_merge _ _ hc.inputs_nodup]
    cases inputs.get? k <;> cases fg.config.get? k <;> rfl
  -- the plan
  obtain ⟨vis, hvis, hmem, _, hvn⟩ := directionalDfs_spec (fg := fg)
    (next := upstreamNext fg (some (fg.config.merge inputs)) (some overrides))
    (upstream_closed (config := fg.config) hw (some (fg.config.merge inputs)) (some overrides))
    (fun k hk => (hc.graph.config_in k ((Dict.has_iff _ _).1 hk)).imp (fun _ h => h.1)) finalVars
    (some (fg.config.merge inputs))
  have hunknown : finalVars.filter (fun v => !(fg.nodes.has v || fg.config.has v) &&
      !(((some (fg.config.merge inputs)).getD []).has v)) = [] := by
    rw [List.filter_eq_nil_iff]
    intro k hk
    obtain ⟨n, hn⟩ := hc.requested k hk
    have : fg.nodes.has k = true := (Dict.has_eq_true_iff _ _).2 ⟨n, hn⟩
    simp [this]
  rw [if_pos hunknown] at hvis
  have hiff : ∀ x, x ∈ vis.nodes ↔ ∃ r ∈ finalVars, (∃ n, fg.nodes.get? r = some n) ∧
      Reaches (RunEdge fg.nodes (fg.config.merge inputs) overrides) r x := by
    intro x
    have he : ∀ a b, nextOf fg.nodes (upstreamNext fg (some (fg.config.merge inputs)) (some overrides)) a b ↔
        RunEdge fg.nodes (fg.config.merge inputs) overrides a b := by
      intro a b
      rw [nextOf_upstream_some (config := fg.config) hw halln (some overrides) a b]
      unfold RunEdge
      simp only [hsame]
      rfl
    rw [hmem]
    constructor
    · rintro ⟨r, hr, hrn, h⟩
      exact ⟨r, hr, hrn, h.mono (fun a b e => (he a b).1 e)⟩
    · rintro ⟨r, hr, hrn, h⟩
      exact ⟨r, hr, hrn, h.mono (fun a b e => (he a b).2 e)⟩
  have hvg : ∀ x ∈ vis.nodes, ∃ n, fg.nodes.get? x = some n := by
    intro x hx
    obtain ⟨r, _, hrn, hre⟩ := (hiff x).1 hx
    clear hx
    induction hre with
    | refl => exact hrn
    | step _ e _ =>
      obtain ⟨_, nn, t, h1, h2, _⟩ := e
      exact hw.deps_in h1 (Dict.mem_keys_iff.2 ⟨t, h2⟩)
  -- the node objects
  let nodes := vis.nodes.filterMap (fun k => fg.nodes.get? k)
  have hnodes : ∀ n, n ∈ nodes ↔ n.name ∈ vis.nodes ∧ fg.nodes.get? n.name = some n := by
    intro n
    show n ∈ vis.nodes.filterMap _ ↔ _
    rw [List.mem_filterMap]
    constructor
    · rintro ⟨k, hk, hkn⟩
      have := hw.name_eq hkn
      rw [this]; exact ⟨hk, hkn⟩
    · rintro ⟨h1, h2⟩; exact ⟨_, h1, h2⟩
  have hnames : (nodes.map (·.name)).Nodup := by
    have : nodes.map (·.name) = vis.nodes := by
      show (vis.nodes.filterMap _).map _ = _
      have key : ∀ l : List Name, (∀ x ∈ l, ∃ n, fg.nodes.get? x = some n) →
          (l.filterMap (fun k => fg.nodes.get? k)).map (·.name) = l := by
        intro l
        induction l with
        | nil => intro _; rfl
        | cons a t ih =>
          intro hl
          obtain ⟨n, hn⟩ := hl a (by simp)
          rw [List.filterMap_cons, hn]
          simp only [List.map_cons]
          rw [ih (fun x hx => hl x (by simp [hx])), hw.name_eq hn]
      exact key _ hvg
    rw [this]; exact hvn
  have hreq : ∀ k ∈ finalVars, ∃ n ∈ nodes, n.name = k := by
    intro k hk
    obtain ⟨n, hn⟩ := hc.requested k hk
    have hname := hw.name_eq hn
    refine ⟨n, (hnodes n).2 ?_, hname⟩
    rw [hname]
    exact ⟨(hiff k).2 ⟨k, hk, ⟨n, hn⟩, .refl _⟩, hn⟩
  have hgi : GroupInput nodes := by
    refine ⟨hnames, ?_, ?_, ?_⟩
    · intro n hn; exact hw.params_nodup ((hnodes n).1 hn).2
    · intro n hn; exact hw.deps_eq ((hnodes n).1 hn).2
    · obtain ⟨rank, hr⟩ := hc.acyclic
      refine ⟨rank, fun n hn d hd => ?_⟩
      have hng := ((hnodes n).1 hn).2
      exact hr _ n hng d (by rw [← hw.deps_eq hng]; exact hd)
  have hne : nodes ≠ [] := by
    obtain ⟨k, hk⟩ := List.exists_mem_of_ne_nil _ hc.nonempty
    obtain ⟨n, hn, _⟩ := hreq k hk
    intro h
    rw [h] at hn; cases hn
  obtain ⟨groups, hgr, hpg⟩ := hgs fg.nodes nodes hgi hne (fun n hn => hc.plain _ n ((hnodes n).1 hn).2)
  have hclosed : ∀ n ∈ nodes, overrides.get? n.name = none → ∀ d ∈ n.inputTypes.keys, (∃ dn ∈ nodes, dn.name = d) ∨
      ((∃ ty, n.inputTypes.get? d = some (ty, .optional)) ∧ (∃ dn, fg.nodes.get? d = some dn ∧ dn.kind = .external) ∧
        (fg.config.merge inputs).get? d = none) := by
    intro n hn hno d hd
    obtain ⟨hnv, hng⟩ := (hnodes n).1 hn
    obtain ⟨⟨ty, dt⟩, hty⟩ := Dict.mem_keys_iff.1 hd
    by_cases he : dt = .optional ∧ ∃ dn, fg.nodes.get? d = some dn ∧ dn.kind = .external ∧
        (fg.config.merge inputs).get? d = none
    · obtain ⟨rfl, dn, h1, h2, h3⟩ := he
      exact .inr ⟨⟨ty, hty⟩, ⟨dn, h1, h2⟩, h3⟩
    · left
      obtain ⟨r, hr, hrn, hre⟩ := (hiff _).1 hnv
      obtain ⟨dn, hdn⟩ := hw.deps_in hng hd
      have hname := hw.name_eq hdn
      refine ⟨dn, (hnodes dn).2 ?_, hname⟩
      rw [hname]
      exact ⟨(hiff d).2 ⟨r, hr, hrn, .step hre ⟨hno, n, (ty, dt), hng, hty, he⟩⟩, hdn⟩
  obtain ⟨specs, hplan⟩ := createTaskPlan_some (groups := groups) (requested := finalVars) (overrides := overrides) (by
    intro gr hg n hn hno d hd hdo hdg hdall
    have hnn := (hpg.covers n).1 ⟨gr, hg, hn⟩
    have hng := ((hnodes n).1 hnn).2
    rcases hclosed n hnn hno d (by rw [← hw.deps_eq hng]; exact hd) with ⟨dn, hdn, hdd⟩ | ⟨⟨ty, hty⟩, _⟩
    · obtain ⟨gr', hg', hgn'⟩ := (hpg.covers dn).2 hdn
      exact absurd hdd (hdall gr' hg' dn hgn')
    · unfold Node.requires
      rw [hty])
  have hgne : groups ≠ [] := by
    intro h
    obtain ⟨n, hn⟩ := List.exists_mem_of_ne_nil _ hne
    obtain ⟨gr, hg, _⟩ := (hpg.covers n).2 hn
    rw [h] at hg; cases hg
  have hstart : ∀ k, (Dict.merge overrides (fg.config.merge inputs)).get? k =
      ((fg.config.merge inputs).get? k).or (overrides.get? k) := fun k => Dict.get?_merge _ _ halln k
  refine ⟨nodes, groups, specs, ?_, hpg.live hgne hplan, hreq, ?_, ?_⟩
  · exact { wf := hw, acyclic := hc.acyclic, plain := hpg, plan := hplan,
            in_graph := fun n hn => ((hnodes n).1 hn).2, closed := hclosed, agree := hc.agree, start := hstart,
            keys := hpg.keys hplan, start_plain := fun hr => absurd hr (hpg.not_repeated hplan) }
  · intro n hn
    obtain ⟨r, hr, _, hre⟩ := (hiff _).1 ((hnodes n).1 hn).1
    exact ⟨r, hr, hre⟩
  · intro cs
    unfold taskBasedExecute getUpstreamNodes
    rw [hcomb]
    simp only [hvis, hc.listify]
    have hgr' : group fg.nodes (List.filterMap (fun k => fg.nodes.get? k) vis.nodes) = some groups := hgr
    rw [hgr']
    simp only [hplan]
    try rfl

/-- **C19, soundness.** Whatever the (dependency respecting) grouping, the executors and the completion order: if a
task-based call returns, then in-memory execution of the same call returns too, the same names are returned, with the same
values.  Missing: calls in which an input (or config value) and an override of one name differ (`C19_violated`), calls that
request an input that no function uses. -/
theorem C19_same_values_partial (hlaw : ∀ l, ops.toList (ops.ofList l) = some l) (hgs : PlainStrategy group)
    (hc : PlainCall fg finalVars overrides inputs) (cs : List Choice) (hcs : ∀ c ∈ cs, ∀ id, c.obs id ≠ .silentFail)
    {r : Dict Name V} (h : taskBasedExecute ops ex group fg finalVars overrides inputs cs = .ok r) :
    ∃ out, defaultExecutorExecute fg finalVars overrides inputs = .ok out ∧
      (∀ k, k ∈ r.keys ↔ k ∈ finalVars) ∧ (∀ k, k ∈ out.keys ↔ k ∈ finalVars) ∧
      ∀ k ∈ finalVars, ∃ v, r.get? k = some v ∧ out.get? k = some (some v) := by
  have hdisj : ∀ k ∈ inputs.keys, k ∉ fg.config.keys := by
    unfold taskBasedExecute at h
    cases hcomb : combineConfigAndInputs fg.config inputs with
    | error e => rw [hcomb] at h; cases h
    | ok a => exact (combine_ok hcomb).2
  obtain ⟨nodes, groups, specs, ctx, hlive, hreq, _, hexec⟩ := hc.setup (ops := ops) (ex := ex) hgs hdisj
  rw [hexec] at h
  obtain ⟨hok, _⟩ := run_ainv (g := fg.nodes) (ex := ex) hlaw hlive.toPlanOk ctx.keys ctx.start_plain cs
  cases hrun : runLoop ops fg.nodes ex cs (initLoop specs (Dict.merge overrides (fg.config.merge inputs))) with
  | err e l => rw [hrun] at h; cases h
  | ok l =>
    rw [hrun] at h
    simp only at h
    have hinv := hok l hrun
    have hnf := runLoop_noFail cs hcs (init_noFail specs _) hrun
    split at h
    · rename_i hterm
      have hsucc : graphState l.sched = .successful := by
        unfold graphState at hterm ⊢
        split
        · rename_i h1
          rw [if_pos h1] at hterm; cases hterm
        · rename_i h1
          rw [if_neg h1] at hterm
          split
          · rfl
          · rename_i h2
            rw [if_neg h2] at hterm
            split
            · rename_i h3
              exfalso
              rw [List.any_eq_true] at h3
              obtain ⟨p, hp, hpf⟩ := h3
              rw [beq_iff_eq] at hpf
              have := Dict.get?_of_mem hinv.loop.states_nodup (k := p.1) (v := p.2) hp
              exact hnf p.1 (by rw [this, hpf])
            · rename_i h3
              rw [if_neg h3] at hterm; cases hterm
      cases hread : cacheRead l.sched.cache none none false finalVars with
      | error e => rw [hread] at h; cases h
      | ok r' =>
        rw [hread] at h
        cases h
        obtain ⟨_, hr1, hr2⟩ := cacheRead_spec hread
        have hval : ∀ k ∈ finalVars, ∃ v, r.get? k = some v ∧
            Den fg.nodes (fg.config.merge inputs) overrides k v := by
          intro k hk
          obtain ⟨v, hv⟩ := hr2 rfl k hk
          obtain ⟨n, hn, rfl⟩ := hreq k hk
          exact ⟨v, hv, ctx.final hlive hinv hsucc hn hk ((hr1 _ _).1 hv).2⟩
        obtain ⟨out, ho, hov⟩ := C04_execute_complete hc.graph hdisj (finalVars := finalVars) (overrides := overrides) (by
          intro k hk n hn
          obtain ⟨v, _, hv⟩ := hval k hk
          exact .inl ⟨v, hv⟩)
        refine ⟨out, ho, ?_, ?_, ?_⟩
        · intro k
          rw [Dict.mem_keys_iff]
          constructor
          · rintro ⟨v, hv⟩; exact ((hr1 _ _).1 hv).1
          · exact hr2 rfl k
        · exact (defaultExecutor_ok (g := fg.nodes) (config := fg.config) hc.graph.wf ho).2.1
        · intro k hk
          obtain ⟨v, hv, hd⟩ := hval k hk
          exact ⟨v, hv, hov k hk v hd⟩
    · cases h

/-- **C19, completeness.** If in-memory execution of a call returns a value for every requested node, then task-based
execution of the call returns too, under every schedule of executors that complete what they are given and neither break
nor hide failures; with the same values.  Missing: as before, and calls that request nothing (`C18_violated_empty`). -/
theorem C19_same_success_partial (hlaw : ∀ l, ops.toList (ops.ofList l) = some l) (hgs : PlainStrategy group)
    (hc : PlainCall fg finalVars overrides inputs) {σ : Nat → Choice} (hfair : FairSchedule σ)
    (hσ : ∀ n id, (σ n).obs id ≠ .silentFail ∧ (σ n).obs id ≠ .broken)
    {out : Dict Name (Option V)} (h : defaultExecutorExecute fg finalVars overrides inputs = .ok out)
    (hval : ∀ k ∈ finalVars, ∃ v, out.get? k = some (some v)) :
    ∃ n r, taskBasedExecute ops ex group fg finalVars overrides inputs (prefixOf σ n) = .ok r ∧
      ∀ k ∈ finalVars, ∃ v, r.get? k = some v ∧ out.get? k = some (some v) := by
  obtain ⟨hdisj, _, hout⟩ := defaultExecutor_ok (g := fg.nodes) (config := fg.config) hc.graph.wf h
  obtain ⟨nodes, groups, specs, ctx, hlive, hreq, hreach, hexec⟩ := hc.setup (ops := ops) (ex := ex) hgs hdisj
  have hw := hc.graph.wf
  -- requested nodes have values
  have hdreq : ∀ k ∈ finalVars, ∃ v, Den fg.nodes (fg.config.merge inputs) overrides k v := by
    intro k hk
    obtain ⟨n, hn⟩ := hc.requested k hk
    rcases hout k hk n hn with ⟨v, _, hv⟩ | ⟨ho, habs⟩
    · exact ⟨v, hv⟩
    · exfalso
      obtain ⟨v, hv⟩ := hval k hk
      rw [ho] at hv
      cases hv' : inputs.get? k with
      | none => rw [hv'] at hv; cases hv
      | some u =>
        obtain ⟨_, _, _, hi, _⟩ := habs
        rw [Dict.get?_merge _ _ hc.inputs_nodup, hv'] at hi
        cases hi
  have hden : ∀ n ∈ nodes, ∃ v, Den fg.nodes (fg.config.merge inputs) overrides n.name v := by
    intro n hn
    obtain ⟨r, hr, hre⟩ := hreach n hn
    generalize n.name = x at hre
    induction hre with
    | refl => exact hdreq r hr
    | @step _ d _ e ih =>
      obtain ⟨hno, nn, t, h1, h2, h3⟩ := e
      obtain ⟨v, hv⟩ := ih
      cases hv with
      | override _ ho => rw [hno] at ho; cases ho
      | input k1 _ k3 _ =>
        rw [h1] at k1; cases k1
        rw [hw.external_no_params h1 k3] at h2; cases h2
      | call val k1 _ _ k4 k5 _ =>
        rw [h1] at k1; cases k1
        cases hd : val d with
        | some w => exact ⟨w, k4 d w (Dict.mem_keys_iff.2 ⟨t, h2⟩) hd⟩
        | none =>
          obtain ⟨a, dn, b, c, e1, _⟩ := k5 d t (Dict.get?_mem h2) hd
          exact absurd ⟨a, dn, b, c, e1⟩ h3
  obtain ⟨n, hend⟩ := (LInv.init (ops := ops) (g := fg.nodes) hlive.toPlanOk
    (Dict.merge overrides (fg.config.merge inputs))).ends (ex := ex) hlaw hlive hfair
  have hpre : ∀ c ∈ prefixOf σ n, ∀ id, c.obs id ≠ .silentFail ∧ c.obs id ≠ .broken := by
    intro c hcm id
    obtain ⟨m, _, rfl⟩ := List.mem_map.1 hcm
    exact hσ m id
  suffices H : ∃ r, taskBasedExecute ops ex group fg finalVars overrides inputs (prefixOf σ n) = .ok r by
    obtain ⟨r, hr⟩ := H
    refine ⟨n, r, hr, ?_⟩
    obtain ⟨out', ho', _, _, hvals⟩ := C19_same_values_partial hlaw hgs hc _ (fun c hcm id => (hpre c hcm id).1) hr
    rw [h] at ho'
    cases ho'
    exact hvals
  rw [hexec]
  obtain ⟨hok, _⟩ := run_ainv (g := fg.nodes) (ex := ex) hlaw hlive.toPlanOk ctx.keys ctx.start_plain (prefixOf σ n)
  cases hrun : runLoop ops fg.nodes ex (prefixOf σ n) (initLoop specs (Dict.merge overrides (fg.config.merge inputs))) with
  | err e l =>
    exfalso
    have hout' := runLoop_outcome (ex := ex) hlaw hlive.toPlanOk (prefixOf σ n)
      (LInv.init (ops := ops) (g := fg.nodes) hlive.toPlanOk (Dict.merge overrides (fg.config.merge inputs)))
    rw [hrun] at hout'
    obtain ⟨l1, hacts, hfault⟩ := hout'
    have hinv := (AInv.init (ops := ops) (g := fg.nodes) hlive.toPlanOk
      (Dict.merge overrides (fg.config.merge inputs))).acts hlaw hlive.toPlanOk ctx.keys ctx.start_plain hacts
    obtain ⟨id, hid⟩ := ctx.no_fault hlive.toPlanOk hden hinv hfault
    exact runLoop_notBroken _ (fun c hcm id => (hpre c hcm id).2) hrun id hid
  | ok l =>
    rw [hrun] at hend
    simp only
    have hinv := hok l hrun
    have hterm : (graphState l.sched).isTerminal = true := hend
    rw [if_pos hterm]
    have hnf := runLoop_noFail _ (fun c hcm id => (hpre c hcm id).1) (init_noFail specs _) hrun
    have hsucc : graphState l.sched = .successful := by
      cases hgs : graphState l.sched with
      | successful => rfl
      | failed =>
        exfalso
        unfold graphState at hgs
        split at hgs
        · cases hgs
        · split at hgs
          · cases hgs
          · split at hgs
            · rename_i h3
              rw [List.any_eq_true] at h3
              obtain ⟨p, hp, hpf⟩ := h3
              rw [beq_iff_eq] at hpf
              have := Dict.get?_of_mem hinv.loop.states_nodup (k := p.1) (v := p.2) hp
              exact hnf p.1 (by rw [this, hpf])
            · cases hgs
      | _ => rw [hgs] at hterm; cases hterm
    obtain ⟨r, hr⟩ := cacheRead_ok (c := l.sched.cache) (opt := false) (ks := finalVars) (fun _ k hk => by
      obtain ⟨n', hn', rfl⟩ := hreq k hk
      exact ctx.final_some hlive hinv hsucc hn' hk)
    rw [hr]
    exact ⟨r, rfl⟩

/-! ### The strategies of the library -/

/-- C50 (no `Parallelizable`). One task per node: every node is in exactly one task, tasks do not depend on each other
in a circle. -/
theorem C50_individually : PlainStrategy (T := T) (V := V) (fun _ nodes => some (groupIndividually nodes)) :=
  fun _ _ h _ hk => ⟨_, rfl, groupIndividually_plain h hk⟩

/-- C50 (no `Parallelizable`), for the default strategy. -/
theorem C50_blocks_plain : PlainStrategy (T := T) (V := V) (fun g nodes => groupByRepeatableBlocks g nodes) := by
  intro g nodes h _ hk
  obtain ⟨groups, h1, h2, _⟩ := groupByRepeatableBlocks_plain (g := g) h (fun n hnn => (hk n hnn).2)
  exact ⟨groups, h1, h2⟩

/-- C50 (no `Parallelizable`), one task for everything. -/
theorem C50_all_as_one : PlainStrategy (T := T) (V := V) (fun _ nodes => groupAllAsOne nodes) := by
  intro g nodes h hne hk
  obtain ⟨groups, h1, h2, _⟩ := groupAllAsOne_plain h hne hk
  exact ⟨groups, h1, h2⟩

/-- C50 (no `Parallelizable`), one task for every level of the graph. -/
theorem C50_by_level : PlainStrategy (T := T) (V := V) (fun _ nodes => groupByLevel nodes) := by
  intro g nodes h _ _
  obtain ⟨groups, h1, h2, _⟩ := groupByLevel_plain h
  exact ⟨groups, h1, h2⟩

/-! ### Examples -/

/-- The diamond of `TaskSample` without the block: `n`, `d(n, y=…)`, `z(n, d)`. -/
def plainFns : List (Node Bool TaskSample.Va) :=
  [ TaskSample.mk "n" .standard [("x", false)] (fun kw => .ok (.i (TaskSample.toI (kw.get? "x") + 1))),
    { TaskSample.mk "d" .standard [("n", false)] (fun kw =>
        .ok (.i (TaskSample.toI (kw.get? "n") * 2 + (kw.get? "y").elim 10 (fun v => TaskSample.toI (some v))))) with
      inputTypes := [("n", (false, .required)), ("y", (false, .optional))] },
    TaskSample.mk "z" .standard [("n", false), ("d", false)] (fun kw =>
      .ok (.i (TaskSample.toI (kw.get? "n") + TaskSample.toI (kw.get? "d")))) ]

/-- Its graph. -/
def plainGraph : FnGraph Bool TaskSample.Va :=
  ⟨match createFunctionGraph (fun _ _ => true) false [("c", .i 7)] false plainFns with
    | .ok g => g
    | .error _ => [], [("c", .i 7)]⟩

theorem plainFns_fresh : ∀ n ∈ plainFns, Fresh n := by
  intro n hn
  simp only [plainFns, List.mem_cons, List.not_mem_nil, or_false] at hn
  rcases hn with rfl | rfl | rfl <;> exact ⟨by decide, rfl, rfl, by decide⟩

theorem plainGraph_ok : createFunctionGraph (fun _ _ => true) false [("c", .i 7)] false plainFns = .ok plainGraph.nodes := by
  have h : (createFunctionGraph (fun _ _ => true) false [("c", .i 7)] false plainFns).isOk = true := by decide
  unfold plainGraph
  revert h
  generalize createFunctionGraph (fun _ _ => true) false [("c", .i 7)] false plainFns = r
  intro h
  cases r with
  | ok g => rfl
  | error e => simp [Except.isOk, Except.toBool] at h

theorem plainGraph_all (P : Name → Node Bool TaskSample.Va → Bool) (h : plainGraph.nodes.all (fun p => P p.1 p.2) = true) :
    ∀ k n, plainGraph.nodes.get? k = some n → P k n = true := by
  intro k n hk
  rw [List.all_eq_true] at h
  exact h _ (Dict.get?_mem hk)

/-- The call `execute(["z", "n"], inputs={"x": 1}, overrides={"d": 5})`. -/
theorem plainCall : PlainCall plainGraph ["z", "n"] [("d", .i 5)] [("x", .i 1)] where
  graph := by
    exact ⟨(createFunctionGraph_spec plainFns_fresh plainGraph_ok).1,
      (createFunctionGraph_spec plainFns_fresh plainGraph_ok).2.1⟩
  acyclic := by
    refine ⟨fun k => if k = "z" then 3 else if k = "d" then 2 else if k = "n" then 1 else 0, ?_⟩
    intro k n hk d hd
    have := plainGraph_all (fun k n => n.inputTypes.keys.all (fun d => decide
      ((if d = "z" then 3 else if d = "d" then 2 else if d = "n" then 1 else 0) <
       (if k = "z" then 3 else if k = "d" then 2 else if k = "n" then 1 else 0)))) (by decide) k n hk
    rw [List.all_eq_true] at this
    simpa using this d hd
  config_nodup := by decide
  inputs_nodup := by decide
  plain := by
    intro k n hk
    simpa using plainGraph_all (fun _ n => decide (n.kind ≠ .expand ∧ n.kind ≠ .collect)) (by decide) k n hk
  requested := by
    have h : ∀ k ∈ ["z", "n"], k ∈ plainGraph.nodes.keys := by decide
    exact fun k hk => Dict.mem_keys_iff.1 (h k hk)
  nonempty := by decide
  agree := by
    have h : ∀ k ∈ (Dict.merge plainGraph.config [("x", TaskSample.Va.i 1)]).keys,
        k ∉ Dict.keys [("d", TaskSample.Va.i 5)] := by decide
    intro k v w h1 h2
    exact absurd (Dict.mem_keys_iff.2 ⟨w, h2⟩) (h k (Dict.mem_keys_iff.2 ⟨v, h1⟩))

/-- By level, tasks finishing at once. -/
example : taskBasedExecute TaskSample.ops TaskSample.ex (fun _ ns => groupByLevel ns) plainGraph ["z", "n"] [("d", .i 5)]
    [("x", .i 1)] (TaskSample.eager 12) = .ok [("z", .i 7), ("n", .i 2)] := rfl

/-- The in-memory result. -/
theorem plainDefault : defaultExecutorExecute plainGraph ["z", "n"] [("d", .i 5)] [("x", .i 1)] =
    .ok [("z", some (.i 7)), ("n", some (.i 2))] := rfl

example : ∃ n r, taskBasedExecute TaskSample.ops TaskSample.ex (fun _ ns => groupByLevel ns) plainGraph ["z", "n"]
      [("d", .i 5)] [("x", .i 1)] (prefixOf everyOther n) = .ok r ∧
    ∀ k ∈ ["z", "n"], ∃ v, r.get? k = some v ∧
      Dict.get? [("z", some (.i 7)), ("n", some (TaskSample.Va.i 2))] k = some (some v) :=
  C19_same_success_partial TaskSample.ops_law C50_by_level plainCall everyOther_fair
    (by intro n id; unfold everyOther; split <;> exact ⟨by simp, by simp⟩) plainDefault
    (by
      intro k hk
      simp only [List.mem_cons, List.not_mem_nil, or_false] at hk
      rcases hk with rfl | rfl <;> exact ⟨_, rfl⟩)

/-! ### Two blocks, the second using the collected result of the first -/

/-- The module `e1`, `b1(e1)`, `c1(b1: Collect)`, `e2`, `b2(e2, c1)`, `c2(b2: Collect)`. -/
def twoBlocks : List (Node Bool TaskSample.Va) :=
  [ TaskSample.mk "e1" .expand [] (fun _ => .ok (.l [.i 0, .i 1])),
    TaskSample.mk "b1" .standard [("e1", false)] (fun kw => .ok ((kw.get? "e1").getD (.i 0))),
    TaskSample.mk "c1" .collect [("b1", true)] (fun kw => .ok ((kw.get? "b1").getD (.i 0))),
    TaskSample.mk "e2" .expand [] (fun _ => .ok (.l [.i 5])),
    TaskSample.mk "b2" .standard [("e2", false), ("c1", false)] (fun kw => .ok ((kw.get? "e2").getD (.i 0))),
    TaskSample.mk "c2" .collect [("b2", true)] (fun kw => .ok ((kw.get? "b2").getD (.i 0))) ]

/-- Its graph. -/
def twoBlocksGraph : Graph Bool TaskSample.Va :=
  match createFunctionGraph (fun _ _ => true) false [] false twoBlocks with
  | .ok g => listifyGraph TaskSample.ops g
  | .error _ => []

/-- **C50, violated.** A block that also uses the collected result of an earlier block: the search for the start of the
second block runs through the first one, so `b1` and `c1` are put in two tasks, the block repeats the earlier
collector, and two groups get the same name. -/
theorem C50_violated : ∃ (g : Graph Bool TaskSample.Va) (nodes : List (Node Bool TaskSample.Va))
    (groups : List (NodeGroup Bool TaskSample.Va)),
    (nodes.map (·.name)).Nodup ∧ groupByRepeatableBlocks g nodes = some groups ∧
    (groups.map (fun gr => (gr.baseId, gr.nodes.map (·.name)))) =
      [("expand-e1", ["e1"]), ("block-e1", ["b1"]), ("collect-e1", ["c1"]),
       ("expand-e1", ["e1"]), ("block-e1", ["b1", "c1", "b2"]), ("collect-e1", ["c2"]), ("e2", ["e2"])] ∧
    ¬ Partition nodes groups := by
  refine ⟨twoBlocksGraph, twoBlocksGraph.map (·.2),
    (groupByRepeatableBlocks twoBlocksGraph (twoBlocksGraph.map (·.2))).getD [], by decide, rfl, by decide, ?_⟩
  intro h
  have := h.ids_nodup
  revert this
  decide

end Verif
