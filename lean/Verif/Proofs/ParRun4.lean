import Verif.Proofs.ParRun3

/-! Task-based runs with blocks do not fail when everything has a value. -/
namespace Verif
variable {T V : Type}
variable {ops : TaskOps T V} {g : Graph T V} {all ov c0 : Dict Name V} {requested : List Name}
  {nodes : List (Node T V)} {specs : List (TaskSpec T V)} {ex : Executors}

/-! ### The dependencies recorded in queued tasks -/

/-- Queued tasks record no other dependencies than the task in the pool. -/
def QueueDeps (l : Loop T V) : Prop :=
  ∀ t ∈ l.sched.queue, ∀ t0, l.sched.pool.get? t.id = some t0 → ∀ d ∈ t.realizedDeps, d ∈ t0.realizedDeps

theorem gatherFold_sub {s : Sched T V} {arg : Name} (deps : List (Name × List Name))
    {p q : List V × Dict Name (List Name)} (h : deps.foldlM (bindGatherDep s arg) p = .ok q) : ∀ d ∈ q.2, d ∈ p.2 := by
  induction deps generalizing p with
  | nil =>
    rw [List.foldlM_nil] at h
    cases h
    exact fun _ h => h
  | cons dep deps ih =>
    rw [List.foldlM_cons] at h
    cases hd : bindGatherDep s arg p dep with
    | error e => rw [hd] at h; cases h
    | ok p1 =>
      rw [hd] at h
      intro d hdm
      have h1 := ih h d hdm
      unfold bindGatherDep at hd
      split at hd
      · cases hd; exact h1
      · split at hd
        · cases hd
        · split at hd
          · cases hm : dep.2.mapM (readGathered s arg) with
            | error e => rw [hm] at hd; cases hd
            | ok vs =>
              rw [hm] at hd
              cases hd
              unfold Dict.del at h1
              exact (List.mem_filter.1 h1).1
          · cases hd; exact h1

theorem bindTask_deps {s : Sched T V} {t t' : Task T V} (h : bindTask ops g s t = .ok t') :
    ∀ d ∈ t'.realizedDeps, d ∈ t.realizedDeps := by
  unfold bindTask at h
  simp only at h
  split at h
  · cases h
  rename_i dyn deps hstart
  split at h
  · cases h
  split at h
  · cases h
  cases h
  show ∀ d ∈ deps, d ∈ t.realizedDeps
  unfold bindStart at hstart
  split at hstart
  · split at hstart
    · cases hstart
    · split at hstart
      · cases hstart
      · rename_i arg _
        cases hm : t.realizedDeps.foldlM (bindGatherDep s arg) ([], t.realizedDeps) with
        | error e => rw [hm] at hstart; cases hstart
        | ok q =>
          rw [hm] at hstart
          cases hstart
          exact gatherFold_sub _ hm
  · cases hstart; exact fun _ h => h

theorem QueueDeps.keep {l l' : Loop T V} (h : LInv ops g specs l) (hq : QueueDeps l)
    (hpool : ∀ k t, l.sched.pool.get? k = some t → l'.sched.pool.get? k = some t)
    {t : Task T V} (ht : t ∈ l.sched.queue) {t0 : Task T V} (ht0 : l'.sched.pool.get? t.id = some t0) :
    ∀ d ∈ t.realizedDeps, d ∈ t0.realizedDeps := by
  obtain ⟨_, _, t1, ht1, _⟩ := h.queue_ok t ht
  have := hpool _ _ ht1
  rw [ht0] at this
  cases this
  exact hq t ht t0 ht1

theorem QueueDeps.finish (hlaw : ∀ l, ops.toList (ops.ofList l) = some l) (hp : PlanOk specs)
    {l l' : Loop T V} (h : LInv ops g specs l) (hq : QueueDeps l) {id : Name}
    (hid : id ∈ l.futures.keys) {r : Dict Name V}
    (hr : ∃ t, .submit t ∈ l.trace ∧ t.id = id ∧ executeTask g t = .ok r)
    (hok : finishTask ops l id r = .ok l') : QueueDeps l' := by
  have hl' := h.finishTask hlaw hp hid hr hok
  obtain ⟨t, c, new, h1, h2, h3, h4, h5⟩ := finish_fresh hlaw hp h hid hok
  obtain ⟨p1, p2, p3⟩ := finish_pool new
    { l.sched with states := l.sched.states.set id .successful, cache := c } h4 h5
  obtain ⟨r1, r2, r3, r4, _⟩ := register_fold new
    { l.sched with states := l.sched.states.set id .successful, cache := c } h4
  obtain ⟨e1, e2, e3, e4, _⟩ := enqueueReady_spec (new.foldl Sched.register
    { l.sched with states := l.sched.states.set id .successful, cache := c })
  have hqueue : l'.sched.queue = l.sched.queue ++ readyList (new.foldl Sched.register
    { l.sched with states := l.sched.states.set id .successful, cache := c }) := by
    rw [h3]
    simp only [e4, r2]
  have hpool : l'.sched.pool = (new.foldl Sched.register
    { l.sched with states := l.sched.states.set id .successful, cache := c }).pool := by
    rw [h3]
    exact e2
  intro q hqm t0 ht0
  rw [hqueue] at hqm
  rcases List.mem_append.1 hqm with hqm | hqm
  · refine QueueDeps.keep (l' := l') h hq ?_ hqm ht0
    intro k t' hk; rw [h3]; exact p1 k t' hk
  · have hm := mem_readyList hqm
    rw [← hpool] at hm
    have hids := fun k t hk => (hl'.pool_ok k t hk).1
    have := (mem_pool_map hids hl'.pool_nodup).1 hm
    rw [this] at ht0
    cases ht0
    exact fun _ h => h

theorem QueueDeps.act (hlaw : ∀ l, ops.toList (ops.ofList l) = some l) (hp : PlanOk specs)
    {l l' : Loop T V} (h : LInv ops g specs l) (hq : QueueDeps l) (ha : Act ops g ex l l') : QueueDeps l' := by
  have hkk : ∀ id f, l.futures.get? id = some f → id ∈ l.futures.keys := fun id f hf =>
    Dict.mem_keys_iff.2 ⟨f, hf⟩
  cases ha with
  | submitNow t rest t' r h1 h2 h3 h4 =>
    intro q hqm t0 ht0
    exact hq q (by rw [h1]; exact List.mem_cons_of_mem _ hqm) t0 ht0
  | submitLater t rest t' h1 h2 h3 =>
    intro q hqm t0 ht0
    exact hq q (by rw [h1]; exact List.mem_cons_of_mem _ hqm) t0 ht0
  | reject t rest t' h1 h2 h3 =>
    intro q hqm t0 ht0
    rcases List.mem_cons.1 hqm with rfl | hqm
    · have hcore := bindTask_core h2
      have ht0' : l.sched.pool.get? t.id = some t0 := by rw [← hcore.id_eq]; exact ht0
      intro d hd
      exact hq t (by rw [h1]; simp) t0 ht0' d (bindTask_deps h2 d hd)
    · exact hq q (by rw [h1]; exact List.mem_cons_of_mem _ hqm) t0 ht0
  | running id t h1 => exact hq
  | failed id t h1 => exact hq
  | finishNow _ id r h1 h2 => exact QueueDeps.finish hlaw hp h hq (hkk _ _ h1) (h.fut_now id r h1) h2
  | finishLater _ id t r h1 h2 h3 =>
    obtain ⟨a, b⟩ := h.fut_later id t h1
    exact QueueDeps.finish hlaw hp h hq (hkk _ _ h1) ⟨t, a, b, h2⟩ h3

theorem QueueDeps.acts (hlaw : ∀ l, ops.toList (ops.ofList l) = some l) (hp : PlanOk specs)
    {l l' : Loop T V} (h : LInv ops g specs l) (hq : QueueDeps l) (ha : Acts ops g ex l l') :
    LInv ops g specs l' ∧ QueueDeps l' := by
  induction ha with
  | refl => exact ⟨h, hq⟩
  | tail _ h2 ih => exact ⟨ih.1.act hlaw hp h2, QueueDeps.act hlaw hp ih.1 ih.2 h2⟩

theorem initLoop_queueDeps (hp : PlanOk specs) (c0 : Dict Name V) : QueueDeps (initLoop specs c0) := by
  intro t ht t0 ht0
  rw [initLoop_queue hp c0 ht] at ht0
  cases ht0
  exact fun _ h => h

/-! ### Values of the nodes of a task -/

/-- Every needed node outside of blocks has a value. -/
def HasValues (ops : TaskOps T V) (g : Graph T V) (all ov : Dict Name V) (nodes : List (Node T V)) : Prop :=
  ∀ n ∈ nodes, (∀ d ∈ nodes, d.kind = .collect → ¬ InBlock g d.name n.name) → ∃ v, ParDen ops g all ov n.name v

section Values
variable (c : BlockCtx ops g all ov c0 requested nodes specs)
include c

theorem BlockCtx.det {ov' : Dict Name V} (hle : ∀ j, ov'.get? j = none → ov.get? j = none) {k : Name} {v w : V}
    (hk : InRun g nodes k) (h : ParDen ops g all ov' k v) (h' : ParDen ops g all ov' k w) : v = w :=
  h.det c.run_closed (fun _ _ _ _ a b d e e' => c.one a b d e e') h' hle hk

theorem BlockCtx.env_le {pre : List (Event T V)} {t0 : Task T V} (h : TaskCase ops g nodes specs pre t0) (j : Name)
    (hj : (envOf ov t0).get? j = none) : ov.get? j = none := c.env_none h hj

/-- Inside a block the collected node reaches everything. -/
theorem BlockCtx.reach_arg {d : Node T V} (hd : d ∈ nodes) (hk : d.kind = .collect) {arg : Name}
    (ha : ∀ x ∈ d.inputTypes.keys, InBlock g d.name x → x = arg) {x : Name} (hx : InBlock g d.name x) :
    Reaches (InsideEdge g) arg x := by
  obtain ⟨h1, ⟨y, ⟨n, hn, hy⟩, hyx⟩, e, he, hxe⟩ := hx
  rw [c.blocks.in_graph d hd] at hn
  cases hn
  have hyb : InBlock g d.name y := by
    refine ⟨?_, ⟨y, ⟨d, c.blocks.in_graph d hd, hy⟩, .refl _⟩, e, he, hyx.trans hxe⟩
    intro hexp
    have : ∀ {a b : Name}, Reaches (InsideEdge g) a b → a = b ∨ ¬ Expander g a := by
      intro a b h
      induction h with
      | refl => exact .inl rfl
      | step h ed ih =>
        rcases ih with rfl | h
        · exact .inr ed.1
        · exact .inr h
    rcases this hyx with rfl | hne
    · exact h1 hexp
    · exact hne hexp
  rw [← ha y hy hyb]
  exact hyx

/-- If the collected node has a value for an element then so has everything in the block. -/
theorem BlockCtx.block_values {d e : Node T V} (hd : d ∈ nodes) (hk : d.kind = .collect) (he : e ∈ nodes)
    (hf : Feeds g e.name d.name) {arg : Name} (hb : InBlock g d.name arg) {item : V}
    (hv : ∃ w, ParDen ops g all (ov.set e.name item) arg w) {x : Name} (hx : Reaches (InsideEdge g) arg x)
    (hxb : InBlock g d.name x) : ∃ w, ParDen ops g all (ov.set e.name item) x w := by
  induction hx with
  | refl => exact hv
  | @step y z hay ed ih =>
    obtain ⟨hne, n, hn, hz⟩ := ed
    obtain ⟨z1, _, e', z2, z3⟩ := hxb
    have hyb : InBlock g d.name y := by
      obtain ⟨_, ⟨a, a1, a2⟩, _⟩ := hb
      exact ⟨hne, ⟨a, a1, a2.trans hay⟩, e', z2, Reaches.head ⟨hne, n, hn, hz⟩ z3⟩
    obtain ⟨w, hw⟩ := ih hyb
    obtain ⟨m, hm, rfl⟩ := c.blocks.whole d hd hk y (.inr hyb)
    obtain ⟨q1, q2, q3⟩ := c.block_kind hd hk hm hyb
    have hmg := c.blocks.in_graph m hm
    have hmn : m = n := by rw [hmg] at hn; cases hn; rfl
    subst hmn
    cases hw with
    | override k1 k2 =>
      exfalso
      rw [Dict.get?_set, if_neg (fun (he : e.name = m.name) => hne (he ▸ hf.1)),
        c.blocks.untouched d hd hk _ (.inr (.inl hyb))] at k2
      cases k2
    | input k1 k2 k3 k4 => rw [hmg] at k1; cases k1; exact absurd k3 q2
    | call val k1 k2 k3 k4 k5 k6 k7 k8 =>
      rw [hmg] at k1; cases k1
      cases hvz : val z with
      | some w => exact ⟨w, k5 z w hz hvz⟩
      | none =>
        exfalso
        obtain ⟨ty, hty⟩ := Dict.mem_keys_iff.1 hz
        obtain ⟨_, zn, b1, b2, _⟩ := k6 z ty (Dict.get?_mem hty) hvz
        obtain ⟨m', hm', rfl⟩ := c.blocks.whole d hd hk z (.inr ⟨z1, by
          obtain ⟨_, ⟨a, a1, a2⟩, _⟩ := hb
          exact ⟨a, a1, a2.trans (.step hay ⟨hne, m, hmg, hz⟩)⟩, e', z2, z3⟩)
        have hzb : InBlock g d.name m'.name := by
          obtain ⟨_, ⟨a, a1, a2⟩, _⟩ := hb
          exact ⟨z1, ⟨a, a1, a2.trans (.step hay ⟨hne, m, hmg, hz⟩)⟩, e', z2, z3⟩
        rw [c.blocks.in_graph m' hm'] at b1
        cases b1
        exact (c.block_kind hd hk hm' hzb).2.1 b2
    | collect val k1 k2 k3 => rw [hmg] at k1; cases k1; exact absurd k3 q1

/-- The elements an expander yielded are those of its value. -/
theorem BlockCtx.yield_value {pre : List (Event T V)} (hg : ParTrace ops g all ov specs pre) {e : Node T V}
    {items : List V} (hy : Yielded ops specs pre ("expand-" ++ e.name) e.name items) :
    ∃ l, ParDen ops g all ov e.name l ∧ ops.toList l = some items := by
  obtain ⟨p, k1, k2, k3, ⟨n, k4, k5⟩, r, l, k6, k7, k8⟩ := hy
  have hnm : ∀ e, ¬ p.MemberOf e := fun e he => he.2.1 k3
  rw [← k2] at k6
  exact ⟨l, ((c.static_value hg k1 hnm k6).1 _ _ k7).1, k8⟩

/-- All nodes of a task have a value, given the element of the task. -/
theorem BlockCtx.task_values (hval : HasValues ops g all ov nodes) {pre : List (Event T V)} {t0 : Task T V}
    (hg : ParTrace ops g all ov specs pre) (h : TaskCase ops g nodes specs pre t0) {n : Node T V} (hn : n ∈ t0.nodes) :
    ∃ v, ParDen ops g all (envOf ov t0) n.name v := by
  cases h with
  | @plain s m h1 h2 h3 h4 h5 h6 =>
    have hn' : n ∈ s.nodes := hn
    rw [h2, List.mem_singleton] at hn'
    subst hn'
    exact hval n h3 h5
  | @gather s d e items h1 h2 h3 h4 h5 h6 h7 h8 =>
    have hn' : n ∈ s.nodes := hn
    rw [h7, List.mem_singleton] at hn'
    subst hn'
    exact hval n h2 (fun d' hd' hk' hb => (c.block_kind hd' hk' h2 hb).1 h3)
  | @branch s d e items i item h1 h2 h3 h4 h5 h6 h7 h8 h9 =>
    obtain ⟨hnn, hnb⟩ := (h7 n).1 hn
    have henv : envOf ov (instTask specs ("expand-" ++ e.name) e.name i item s) = ov.set e.name item := rfl
    rw [henv]
    obtain ⟨v, hv⟩ := hval d h2 (fun d' hd' hk' hb => (c.block_kind hd' hk' h2 hb).1 h3)
    obtain ⟨arg, a1, a2, a3, a4⟩ := c.param d h2 h3
    have hdg := c.blocks.in_graph d h2
    refine c.block_values h2 h3 h4 h5 a2 ?_ (c.reach_arg h2 h3 a3 hnb) hnb
    cases hv with
    | override k1 k2 => rw [c.blocks.untouched d h2 h3 _ (.inr (.inr rfl))] at k2; cases k2
    | input k1 k2 k3 k4 => rw [hdg] at k1; cases k1; rw [h3] at k3; cases k3
    | call val k1 k2 k3 k4 => rw [hdg] at k1; cases k1; exact absurd h3 k4
    | @collect _ _ _ _ arg' e' l items' vs val k1 k2 k3 k4 k5 k6 k7 k8 k9 =>
      rw [hdg] at k1; cases k1
      have harg : arg = arg' := by
        obtain ⟨⟨t, ht, hc⟩, _⟩ := a1
        exact k4.2 _ ht hc
      subst harg
      have hee : e' = e.name := c.blocks.one_start d h2 h3 _ _ k5 h5
      subst hee
      obtain ⟨l', hl1, hl2⟩ := c.yield_value hg h8
      have := c.det (ov' := ov) (fun _ h => h) (.inl ⟨e, h4, rfl⟩) k6 hl1
      subst this
      rw [k7] at hl2
      cases hl2
      have hi : i < items.length := (List.getElem?_eq_some_iff.1 h9).1
      exact ⟨_, k9 i item (vs[i]'(by rw [k8]; exact hi)) h9 (List.getElem?_eq_getElem _)⟩

end Values

section Sub
variable (c : BlockCtx ops g all ov c0 requested nodes specs) {pre : List (Event T V)} {t t0 : Task T V}
  (h : ParSub ops g all ov c0 specs pre t t0)
include c h

theorem ParSub.det {k : Name} {v w : V} (hk : InRun g nodes k) (h1 : ParDen ops g all (envOf ov t0) k v)
    (h2 : ParDen ops g all (envOf ov t0) k w) : v = w :=
  c.det (fun j hj => c.env_le (c.case_of h.real) j hj) hk h1 h2

theorem ParSub.in_run {n : Node T V} (hn : n ∈ t0.nodes) : InRun g nodes n.name :=
  .inl ⟨n, c.node_mem h.real.spec hn, rfl⟩

/-- Right values of the nodes of an ordinary task are computed from what the task is given. -/
theorem ParSub.complete (hng : t0.purpose ≠ .gather) {k : Name} {v : V}
    (hd : ParDen ops g all (envOf ov t0) k v) (hk : k ∈ t0.nodes.map (·.name)) :
    Den g t.dynamicInputs t.given k v := by
  have hcase := c.case_of h.real
  have harg : ∀ k, ¬ IsArg ops t0 k := fun k ha => hng ha.1
  generalize henv : envOf ov t0 = env at hd
  induction hd with
  | @override _ k n v h1 h2 =>
    subst henv
    obtain ⟨n', hn', rfl⟩ := List.mem_map.1 hk
    refine .override h1 ?_
    rw [h.given_get c, h.ov_in c hk, ← c.env_node hcase hn', h2]
    rfl
  | @input _ k n v h1 h2 h3 h4 =>
    subst henv
    obtain ⟨n', hn', rfl⟩ := List.mem_map.1 hk
    have := c.node_graph h.real.spec hn'
    rw [h1] at this; cases this
    obtain ⟨w, hw⟩ := h.inside_external c hn' h3
    have := h.det c (h.in_run c hn') (h.given_den c (harg _) hw) (.input h1 h2 h3 h4)
    subst this
    exact .override h1 hw
  | collect val h1 h2 h3 =>
    obtain ⟨n', hn', rfl⟩ := List.mem_map.1 hk
    have := c.node_graph h.real.spec hn'
    rw [h1] at this; cases this
    exact absurd h3 (c.kinds hcase hng hn')
  | @call _ k n v w val h1 h2 h3 h4 h5 h6 h7 h8 ih =>
    subst henv
    obtain ⟨n', hn', rfl⟩ := List.mem_map.1 hk
    have hnn : n' = n := by
      have := c.node_graph h.real.spec hn'
      rw [h1] at this; cases this; rfl
    subst hnn
    cases hgv : t.given.get? n'.name with
    | some u =>
      have := h.det c (h.in_run c hn') (h.given_den c (harg _) hgv) (.call val h1 h2 h3 h4 h5 h6 h7 h8)
      subst this
      exact .override h1 hgv
    | none =>
      obtain ⟨hno, hne⟩ := h.env_none c hn' hgv
      have hvw : v = w := by
        unfold Listed at h8
        split at h8
        · rename_i hx
          obtain ⟨l, rfl⟩ := c.listed _ _ h1 hx _ _ h7
          obtain ⟨items, hi, rfl⟩ := h8
          rw [c.law] at hi
          cases hi; rfl
        · exact h8.symm
      subst hvw
      have hout : ∀ d ∈ n'.inputTypes.keys, d ∉ t0.nodes.map (·.name) → InRun g nodes d :=
        fun d hd _ => c.run_closed.params _ n' (h.in_run c hn') h1 hno d hd
      refine .call val h1 hgv h3 ?_ ?_ h7
      · intro d w hd hv
        by_cases hds : d ∈ t0.nodes.map (·.name)
        · exact ih d w hd hv hds rfl
        · rcases h.outside c hn' hno hd hds with ⟨w', hw'⟩ | ⟨hnone, habs, _⟩
          · have := h.det c (hout d hd hds) (h5 d w hd hv) (h.given_den c (harg _) hw')
            subst this
            obtain ⟨dn, hdn⟩ := c.wf.deps_in h1 hd
            exact .override hdn hw'
          · exact absurd (h5 d w hd hv) habs.not_par
      · intro d ty hd hv
        obtain ⟨a, habs⟩ := h6 d ty hd hv
        refine ⟨a, ?_⟩
        have hdk : d ∈ n'.inputTypes.keys := mem_keys_of_mem hd
        by_cases hds : d ∈ t0.nodes.map (·.name)
        · exfalso
          obtain ⟨m, hm, rfl⟩ := List.mem_map.1 hds
          obtain ⟨dn, hdn, hext, _⟩ := habs
          have := c.node_graph h.real.spec hm
          rw [hdn] at this; cases this
          obtain ⟨w, hw⟩ := h.inside_external c hm hext
          exact (h6 m.name ty hd hv).2.not_par (h.given_den c (harg _) hw)
        · rcases h.outside c hn' hno hdk hds with ⟨w', hw'⟩ | ⟨hnone, ⟨dn, b1, b2, _⟩, _⟩
          · exact absurd (h.given_den c (harg _) hw') habs.not_par
          · exact ⟨dn, b1, b2, h.dyn_none c hnone, hnone⟩

end Sub

/-- Right values of a collector are computed from what it is given. -/
theorem ParSub.complete_gather (c : BlockCtx ops g all ov c0 requested nodes specs) {pre : List (Event T V)}
    {t t0 : Task T V} (h : ParSub ops g all ov c0 specs pre t t0) (hp : t0.purpose = .gather) {k : Name} {v : V}
    (hd : ParDen ops g all (envOf ov t0) k v) (hk : k ∈ t0.nodes.map (·.name)) :
    Den g t.dynamicInputs t.given k v := by
  cases c.case_of h.real with
  | plain _ _ _ _ _ h6 => exact absurd hp h6
  | branch _ _ _ _ _ h6 => exact absurd hp h6.2.2
  | @gather s d e items h1 h2 h3 h4 h5 h6 h7 h8 =>
    have henv : envOf ov (collTask specs ("expand-" ++ e.name) items s) = ov := rfl
    rw [henv] at hd
    have hk' : k ∈ s.nodes.map (·.name) := hk
    rw [h7] at hk'
    simp only [List.map_cons, List.map_nil, List.mem_singleton] at hk'
    subst hk'
    have hdg := c.blocks.in_graph d h2
    have hdmem : d ∈ (collTask specs ("expand-" ++ e.name) items s).nodes := by
      have : d ∈ s.nodes := by rw [h7]; simp
      exact this
    obtain ⟨arg, a1, a2, a3, a4⟩ := c.param d h2 h3
    have hga : gatherArg ops s = some arg := c.gather_arg h2 h3 h7 a1
    obtain ⟨rank, hrk⟩ := c.acyclic
    have hnarg : ∀ x, x ≠ arg → ¬ IsArg ops (collTask specs ("expand-" ++ e.name) items s) x := by
      rintro x hx ⟨_, ha⟩
      have ha' : gatherArg ops s = some x := ha
      rw [hga] at ha'
      exact hx (Option.some.inj ha').symm
    have hdarg : d.name ≠ arg := by
      intro he
      have := a2.rank hrk
      rw [he] at this
      omega
    have hout : ∀ x ∈ d.inputTypes.keys, x ∉ (collTask specs ("expand-" ++ e.name) items s).nodes.map (·.name) := by
      intro x hx hm
      have hm' : x ∈ s.nodes.map (·.name) := hm
      rw [h7] at hm'
      simp only [List.map_cons, List.map_nil, List.mem_singleton] at hm'
      have := hrk _ d hdg x hx
      rw [hm'] at this
      omega
    have hno : ov.get? d.name = none := c.blocks.untouched d h2 h3 _ (.inr (.inr rfl))
    have hrun : ∀ x ∈ d.inputTypes.keys, InRun g nodes x :=
      fun x hx => c.run_closed.params _ d (.inl ⟨d, h2, rfl⟩) hdg hno x hx
    have hdet : ∀ {x : Name} {u w : V}, InRun g nodes x → ParDen ops g all ov x u → ParDen ops g all ov x w → u = w :=
      fun hx ha hb => c.det (fun _ h => h) hx ha hb
    cases hgv : t.given.get? d.name with
    | some u =>
      have := hdet (.inl ⟨d, h2, rfl⟩) (h.given_den c (hnarg _ hdarg) hgv) hd
      subst this
      exact .override hdg hgv
    | none =>
      cases hd with
      | override k1 k2 => rw [hno] at k2; cases k2
      | input k1 k2 k3 k4 => rw [hdg] at k1; cases k1; rw [h3] at k3; cases k3
      | call val k1 k2 k3 k4 => rw [hdg] at k1; cases k1; exact absurd h3 k4
      | @collect _ _ _ _ arg' e' l items' vs val k1 k2 k3 k4 k5 k6 k7 k8 k9 k10 k11 k12 k13 =>
        rw [hdg] at k1; cases k1
        have harg : arg = arg' := by
          obtain ⟨⟨t, ht, hc⟩, _⟩ := a1
          exact k4.2 _ ht hc
        subst harg
        have hee : e' = e.name := c.blocks.one_start d h2 h3 _ _ k5 h5
        subst hee
        have hak : arg ∈ d.inputTypes.keys := by
          obtain ⟨⟨ty, hty, _⟩, _⟩ := a1
          exact mem_keys_of_mem hty
        obtain ⟨v0, hv0⟩ : ∃ v0, t.given.get? arg = some v0 := by
          rcases h.outside c hdmem hno hak (hout _ hak) with h' | ⟨_, ⟨dn, b1, b2, _⟩, _⟩
          · exact h'
          · exfalso
            obtain ⟨an, hann, hane⟩ := c.blocks.whole d h2 h3 arg (.inr a2)
            have := c.blocks.in_graph an hann
            rw [hane, b1] at this
            cases this
            exact (c.block_kind h2 h3 hann (by rw [hane]; exact a2)).2.1 b2
        obtain ⟨⟨l', hl1, hl2⟩, vs', rfl, hvs1, hvs2⟩ := h.collected c h2 h3 h4 h5 h6 h7 h8 a1 a2 a4 hv0
        have := hdet (.inl ⟨e, h4, rfl⟩) k6 hl1
        subst this
        rw [k7] at hl2
        cases hl2
        have hvs : vs' = vs := by
          apply List.ext_getElem (by rw [hvs1, k8])
          intro i hi hi'
          have hii : i < items.length := by rw [← k8]; exact hi'
          have q1 := hvs2 i items[i] vs'[i] (List.getElem?_eq_getElem hii) (List.getElem?_eq_getElem hi)
          have q2 := k9 i items[i] vs[i] (List.getElem?_eq_getElem hii) (List.getElem?_eq_getElem hi')
          exact c.det (fun j hj => get?_set_none hj) (hrun arg hak) q1 q2
        subst hvs
        refine .call val hdg hgv (by rw [h3]; simp) ?_ ?_ k13
        · intro x w hx hv
          obtain ⟨xn, hxn⟩ := c.wf.deps_in hdg hx
          by_cases hxa : x = arg
          · subst hxa
            rw [k10] at hv
            cases hv
            exact .override hxn hv0
          · rcases h.outside c hdmem hno hx (hout x hx) with ⟨w', hw'⟩ | ⟨hnone, habs, _⟩
            · have := hdet (hrun x hx) (k11 x w hx hxa hv) (h.given_den c (hnarg _ hxa) hw')
              subst this
              exact .override hxn hw'
            · have habs' : Absent g all ov x := habs
              exact absurd (k11 x w hx hxa hv) habs'.not_par
        · intro x ty hx hv
          obtain ⟨a, habs⟩ := k12 x ty hx hv
          refine ⟨a, ?_⟩
          have hxk : x ∈ d.inputTypes.keys := mem_keys_of_mem hx
          have hxa : x ≠ arg := by
            rintro rfl
            rw [k10] at hv; cases hv
          rcases h.outside c hdmem hno hxk (hout x hxk) with ⟨w', hw'⟩ | ⟨hnone, ⟨dn, b1, b2, _⟩, _⟩
          · have : ParDen ops g all ov x w' := h.given_den c (hnarg _ hxa) hw'
            exact absurd this habs.not_par
          · exact ⟨dn, b1, b2, h.dyn_none c hnone, hnone⟩

theorem BlockCtx.exec_ok (c : BlockCtx ops g all ov c0 requested nodes specs) (hval : HasValues ops g all ov nodes)
    {pre : List (Event T V)} {t t0 : Task T V} (h : ParSub ops g all ov c0 specs pre t t0) :
    ∃ r, executeTask g t = .ok r := by
  have hnodes : t.nodes = t0.nodes := congrArg (·.nodes) h.core.spec_eq
  have hspec := executeSubdag_spec c.wf t.nodes (by rw [hnodes]; exact fun n hn => c.node_graph h.real.spec hn)
    t.dynamicInputs t.given
  unfold executeTask
  split
  · rename_i e st hst
    have hst' : executeSubdag g t.nodes t.dynamicInputs t.given = .err e st := hst
    rw [hst'] at hspec
    obtain ⟨_, _, n, hn, hres⟩ := hspec
    exfalso
    apply hres
    rw [hnodes] at hn
    obtain ⟨v, hv⟩ := c.task_values hval h.good (c.case_of h.real) hn
    have hnm : n.name ∈ t0.nodes.map (·.name) := List.mem_map.2 ⟨n, hn, rfl⟩
    by_cases hp : t0.purpose = .gather
    · exact .inl ⟨v, h.complete_gather c hp hv hnm⟩
    · exact .inl ⟨v, h.complete c hp hv hnm⟩
  · exact ⟨_, rfl⟩

end Verif
