import Verif.Proofs.ParRun4

/-! Task-based runs with blocks: binding and reporting do not fail. -/
namespace Verif
variable {T V : Type}
variable {ops : TaskOps T V} {g : Graph T V} {all ov c0 : Dict Name V} {requested : List Name}
  {nodes : List (Node T V)} {specs : List (TaskSpec T V)} {ex : Executors}

theorem mapM_all_ok {α β ε : Type} {f : α → Except ε β} {l : List α} (h : ∀ a ∈ l, ∃ b, f a = .ok b) :
    ∃ r, l.mapM f = .ok r := by
  induction l with
  | nil => exact ⟨[], rfl⟩
  | cons a l ih =>
    obtain ⟨b, hb⟩ := h a (by simp)
    obtain ⟨bs, hbs⟩ := ih (fun x hx => h x (by simp [hx]))
    exact ⟨b :: bs, by rw [List.mapM_cons, hb, hbs]; rfl⟩

theorem gatherFold_ok {s : Sched T V} {arg : Name} (deps : List (Name × List Name))
    (h1 : ∀ dep ∈ deps, ∀ d ∈ dep.2, ∃ t, s.pool.get? d = some t)
    (h2 : ∀ dep ∈ deps, ∀ d0 ds t0, dep.2 = d0 :: ds → s.pool.get? d0 = some t0 →
      (t0.nodes.map (·.name)).contains arg = true → ∀ d ∈ dep.2, ∃ v, readGathered s arg d = .ok v)
    (p : List V × Dict Name (List Name)) : ∃ q, deps.foldlM (bindGatherDep s arg) p = .ok q := by
  induction deps generalizing p with
  | nil => exact ⟨p, rfl⟩
  | cons dep deps ih =>
    have hstep : ∃ p1, bindGatherDep s arg p dep = .ok p1 := by
      unfold bindGatherDep
      split
      · exact ⟨_, rfl⟩
      · rename_i d0 ds hd
        obtain ⟨t0, ht0⟩ := h1 dep (by simp) d0 (by rw [hd]; simp)
        rw [ht0]
        simp only
        split
        · rename_i hcon
          obtain ⟨vs, hvs⟩ := mapM_all_ok (h2 dep (by simp) d0 ds t0 hd ht0 hcon)
          rw [hvs]
          exact ⟨_, rfl⟩
        · exact ⟨_, rfl⟩
    obtain ⟨p1, hp1⟩ := hstep
    rw [List.foldlM_cons, hp1]
    exact ih (fun d hd => h1 d (by simp [hd])) (fun d hd => h2 d (by simp [hd])) p1

/-- The tasks recorded under one dependency of a collector are copies of that dependency. -/
theorem LInv.gather_entry (hp : PlanOk specs) {l : Loop T V} (h : LInv ops g specs l) {s : TaskSpec T V} (hs : s ∈ specs)
    {e : Name} {items : List V} {dep : Name × List Name} (hdep : dep ∈ (collTask specs e items s).realizedDeps)
    {d : Name} (hd : d ∈ dep.2) {t : Task T V} (ht : l.sched.pool.get? d = some t) : t.baseId = dep.1 := by
  obtain ⟨hti, htr⟩ := h.pool_ok _ _ ht
  unfold collTask gatherDeps at hdep
  simp only at hdep
  rw [mem_foldl_set (f := fun d => if ((memberSpecs specs e).map (·.baseId)).contains d then
    ((groupNames items).map (fun gn => nameMap (memberSpecs specs e) e gn)).filterMap (fun nm => nm.get? d)
    else [d])] at hdep
  obtain ⟨hd1, hd3⟩ := hdep
  rw [hd3] at hd
  split at hd
  · rename_i hc1
    have hc1' := List.contains_iff_mem.1 hc1
    obtain ⟨nm, hnm, hnm2⟩ := List.mem_filterMap.1 hd
    obtain ⟨gn, hgn, rfl⟩ := List.mem_map.1 hnm
    unfold groupNames at hgn
    obtain ⟨i, _, rfl⟩ := List.mem_map.1 hgn
    rw [nameMap_get?, if_pos hc1'] at hnm2
    have hd0 : d = instanceId e i dep.1 := (Option.some.inj hnm2).symm
    obtain ⟨m2, hm2, hm2b⟩ := List.mem_map.1 hc1'
    obtain ⟨hm2s, hm2m⟩ := mem_memberSpecs.1 hm2
    subst hd0
    rw [← hm2b] at hti ⊢
    cases htr with
    | static s' k1 k2 => exact absurd hti.symm (hp.inst_fresh m2 hm2s s' k1 e i hm2m)
    | coll s' e' x' items' k1 k2 k3 => exact absurd hti.symm (hp.inst_fresh m2 hm2s s' k1 e i hm2m)
    | inst s' e' x' items' i' item' k1 k2 k3 k4 => exact (hp.inst_inj s' k1 m2 hm2s e' e i' i k2 hm2m hti).2.2
  · rw [List.mem_singleton] at hd
    subst hd
    obtain ⟨p, hps, hpd⟩ := hp.deps_in s hs _ hd1
    rw [← hpd] at ht ⊢
    rw [(h.pool_spec hp hps ht).1]

theorem BlockCtx.c0_some (c : BlockCtx ops g all ov c0 requested nodes specs) {k : Name} {kn : Node T V}
    (hkn : g.get? k = some kn) (he : kn.kind = .external) {v : V} (hv : ParDen ops g all ov k v) :
    ∃ w, c0.get? k = some w := by
  cases hv with
  | override h1 h2 =>
    rw [c.start]
    cases all.get? k with
    | some u => exact ⟨u, rfl⟩
    | none => exact ⟨_, h2⟩
  | input h1 h2 h3 h4 => exact ⟨_, by rw [c.start, h4]; rfl⟩
  | call val h1 h2 h3 => rw [hkn] at h1; cases h1; exact absurd he h3
  | collect val h1 h2 h3 => rw [hkn] at h1; cases h1; rw [he] at h3; cases h3

/-- External nodes to run are not in blocks. -/
theorem BlockCtx.external_value (c : BlockCtx ops g all ov c0 requested nodes specs)
    (hval : HasValues ops g all ov nodes) {n : Node T V} (hn : n ∈ nodes) (he : n.kind = .external) :
    ∃ w, c0.get? n.name = some w := by
  obtain ⟨v, hv⟩ := hval n hn (fun d hd hk hb => (c.block_kind hd hk hn hb).2.1 he)
  exact c.c0_some (c.blocks.in_graph n hn) he hv

theorem BlockCtx.bind_ok (c : BlockCtx ops g all ov c0 requested nodes specs) (hval : HasValues ops g all ov nodes)
    {l : Loop T V} (h : AInv ops g specs c0 l) (hqd : QueueDeps l) {t : Task T V} (ht : t ∈ l.sched.queue) :
    ∃ t', bindTask ops g l.sched t = .ok t' := by
  have hg := c.goodTrace h.loop.toTInv h.submit
  obtain ⟨_, _, t0, ht0, hcore⟩ := h.loop.queue_ok t ht
  have hdeps := h.loop.queue_deps ht ht0
  have hreal := (h.loop.pool_ok _ _ ht0).2
  have hcase := c.case_of hreal
  have hsm := hreal.spec
  have hspec : t.toTaskSpec = t0.toTaskSpec := hcore.spec_eq
  -- what has to be read from the cache is there
  have hreq : ∀ k ∈ (getInputVars g t0.toTaskSpec).required, ¬ IsArg ops t0 k → ∃ v, l.sched.cache.get? k = some v := by
    intro k hk harg
    have hkept : (∃ w, c0.get? k = some w) → ∃ v, l.sched.cache.get? k = some v := by
      rintro ⟨w, hw⟩
      exact h.cache.kept _ _ hw
    obtain ⟨n, hn, hno, hcs⟩ := ((getInputVars_spec g t0.toTaskSpec).1 k).1 hk
    have hng := c.node_graph hsm hn
    have hnn := c.node_mem hsm hn
    have hno' : ov.get? n.name = none := by
      rw [(c.spec hsm).ov, if_pos (List.mem_map.2 ⟨n, hn, rfl⟩)] at hno; exact hno
    rcases hcs with ⟨he, rfl⟩ | ⟨hd, ⟨ho1, ho2⟩, hrq⟩
    · exact hkept (c.external_value hval hnn he)
    · have hd' : k ∈ n.inputTypes.keys := by rw [← c.wf.deps_eq hng]; exact hd
      rcases c.closed n hnn hno' k hd' with ⟨dn, hdn, hdd⟩ | ⟨⟨ty, hty⟩, _⟩
      · have hdg := c.blocks.in_graph dn hdn
        rw [hdd] at hdg
        by_cases he : dn.kind = .external
        · exact hkept (hdd ▸ c.external_value hval hdn he)
        · have hout : k ∉ t0.nodes.map (·.name) := by
            rcases ho2 with ⟨kn, ha, hb⟩ | ho2
            · rw [hdg] at ha; cases ha; exact absurd hb he
            · exact ho2
          cases hov : ov.get? k with
          | some u =>
            apply hkept
            rw [c.start, hov]
            cases all.get? k with
            | some u => exact ⟨u, rfl⟩
            | none => exact ⟨_, rfl⟩
          | none =>
            obtain ⟨p, hpm, hpd, hpo, hpn⟩ := c.dep_task hsm hn hno' hd' hout hov hdn hdd
            have hnm := c.not_member hcase hn hd' harg hpm hpd hpn hdd
            obtain ⟨r, hr⟩ := hdeps _ (realized_dep c.hp hreal hpm hpd hnm)
            obtain ⟨w, hw⟩ := (c.static_value hg hpm hnm hr).2 k hpo
            obtain ⟨tp, htp⟩ := h.loop.pool_of_done ⟨r, hr⟩
            obtain ⟨v', _, h2⟩ := h.cache.stored _ r tp k w hr htp hw
            rw [(h.loop.pool_spec c.hp hpm htp).2 k] at h2
            exact ⟨v', h2⟩
      · have : n.requires k = false := by
          unfold Node.requires
          rw [hty]
        rw [this] at hrq; cases hrq
  -- reading from the cache
  have hread : ∀ ks, (∀ k ∈ ks, k ∈ (getInputVars g t0.toTaskSpec).required ∧ ¬ IsArg ops t0 k) →
      ∃ r, cacheRead l.sched.cache none none false ks = .ok r :=
    fun ks hks => cacheRead_ok (fun _ k hk => hreq k (hks k hk).1 (hks k hk).2)
  obtain ⟨r2, hr2⟩ := cacheRead_ok (c := l.sched.cache) (opt := true)
    (ks := (getInputVars g t.toTaskSpec).optional) (fun h => nomatch h)
  -- the collected values
  have hstart : ∃ dyn deps, bindStart ops l.sched t = .ok (dyn, deps) ∧ ∀ k, IsArg ops t0 k → dyn.has k = true := by
    by_cases hgather : t0.purpose = .gather
    · have hgt : t.purpose = .gather := by
        have : t.purpose = t0.purpose := congrArg (·.purpose) hspec
        rw [this]; exact hgather
      obtain ⟨s, d, e, items, htc, h1, h2, h3, h4, h5, h6, h7, h8⟩ : ∃ s d e items,
          t0 = collTask specs ("expand-" ++ e.name) items s ∧ s ∈ specs ∧
          d ∈ nodes ∧ d.kind = .collect ∧ e ∈ nodes ∧ Feeds g e.name d.name ∧
          s.CollectorOf ("expand-" ++ e.name) ∧ s.nodes = [d] ∧
          Yielded ops specs l.trace ("expand-" ++ e.name) e.name items := by
        cases hcase with
        | plain _ _ _ _ _ h6 => exact absurd hgather h6
        | branch _ _ _ _ _ h6 => exact absurd hgather h6.2.2
        | @gather s d e items h1 h2 h3 h4 h5 h6 h7 h8 => exact ⟨s, d, e, items, rfl, h1, h2, h3, h4, h5, h6, h7, h8⟩
      obtain ⟨arg, a1, a2, a3, a4⟩ := c.param d h2 h3
      have hga : gatherArg ops s = some arg := c.gather_arg h2 h3 h7 a1
      have hnodes : t.nodes = [d] := by
        have : t.nodes = t0.nodes := congrArg (·.nodes) hspec
        rw [this, htc]; exact h7
      have hcn : collectorNode t.nodes = some d := by
        rw [hnodes]; simp [collectorNode, h3]
      have hcd : collectDependency ops d = some arg := by
        unfold gatherArg at hga
        rw [h7] at hga
        have : collectorNode [d] = some d := by simp [collectorNode, h3]
        rw [this] at hga
        exact hga
      -- the task that computes the collected node
      obtain ⟨an, hann, hane⟩ := c.blocks.whole d h2 h3 arg (.inr a2)
      have hak : arg ∈ d.inputTypes.keys := by
        obtain ⟨⟨ty, hty, _⟩, _⟩ := a1
        exact mem_keys_of_mem hty
      obtain ⟨rank, hrk⟩ := c.acyclic
      have hargne : arg ∉ s.nodes.map (·.name) := by
        rw [h7]
        intro hm
        simp only [List.map_cons, List.map_nil, List.mem_singleton] at hm
        have := a2.rank hrk
        rw [hm] at this
        omega
      obtain ⟨m, hm, hmd, hmo, hmn⟩ := c.dep_task h1 (n := d) (by rw [h7]; simp)
        (c.blocks.untouched d h2 h3 _ (.inr (.inr rfl))) hak hargne
        (c.blocks.untouched d h2 h3 arg (.inr (.inl a2))) hann hane
      have hin : ∀ dep ∈ t.realizedDeps, ∀ d' ∈ dep.2, Done l.trace d' := by
        intro dep hdep d' hd'
        exact hdeps d' (List.mem_flatMap.2 ⟨dep, hqd t ht t0 ht0 dep hdep, hd'⟩)
      obtain ⟨q, hq⟩ := gatherFold_ok (s := l.sched) (arg := arg) t.realizedDeps
        (fun dep hdep d' hd' => h.loop.pool_of_done (hin dep hdep d' hd')) (by
          intro dep hdep d0 ds td0 hds htd0 hcon d' hd'
          have hdep0 := hqd t ht t0 ht0 dep hdep
          rw [htc] at hdep0
          have hb0 := h.loop.gather_entry c.hp h1 hdep0 (d := d0) (by rw [hds]; simp) htd0
          rw [List.contains_iff_mem, List.mem_map] at hcon
          obtain ⟨n0, hn0, hn0a⟩ := hcon
          have hreal0 := (h.loop.pool_ok _ _ htd0).2
          have hm0 : td0.baseId = m.baseId :=
            c.keys.node_disjoint _ hreal0.spec m hm n0 hn0 an hmn (hn0a.trans hane.symm)
          obtain ⟨r, hr⟩ := hin dep hdep d' hd'
          obtain ⟨td, htd⟩ := h.loop.pool_of_done ⟨r, hr⟩
          obtain ⟨htdi, htdr⟩ := h.loop.pool_ok _ _ htd
          have hb := h.loop.gather_entry c.hp h1 hdep0 hd' htd
          have htm : td.toTaskSpec = m := spec_unique c.hp htdr.spec hm (by
            show td.baseId = m.baseId
            rw [hb, ← hb0, hm0])
          obtain ⟨t1, k1, k2, k3, k4⟩ := hg _ r hr
          have ht1 : t1.toTaskSpec = m := by
            have : ∀ {u w : Task T V}, Realized ops specs l.trace u → Realized ops specs l.trace w → u.id = w.id →
                u.toTaskSpec = w.toTaskSpec := by
              intro u w hu hw huw
              cases hu with
              | static s1 a b =>
                cases hw with
                | static s2 a' b' => exact spec_unique c.hp a a' huw
                | coll s2 e2 x2 items2 a' b' y' => exact spec_unique c.hp a a' huw
                | inst s2 e2 x2 items2 i2 item2 a' b' y' z' => exact absurd huw.symm (c.hp.inst_fresh s2 a' s1 a e2 i2 b')
              | coll s1 e1 x1 items1 a b y =>
                cases hw with
                | static s2 a' b' => exact spec_unique c.hp a a' huw
                | coll s2 e2 x2 items2 a' b' y' => exact spec_unique c.hp a a' huw
                | inst s2 e2 x2 items2 i2 item2 a' b' y' z' => exact absurd huw.symm (c.hp.inst_fresh s2 a' s1 a e2 i2 b')
              | inst s1 e1 x1 items1 i1 item1 a b y z =>
                cases hw with
                | static s2 a' b' => exact absurd huw (c.hp.inst_fresh s1 a s2 a' e1 i1 b)
                | coll s2 e2 x2 items2 a' b' y' => exact absurd huw (c.hp.inst_fresh s1 a s2 a' e1 i1 b)
                | inst s2 e2 x2 items2 i2 item2 a' b' y' z' =>
                  exact spec_unique c.hp a a' (c.hp.inst_inj s1 a s2 a' e1 e2 i1 i2 b b' huw).2.2
            exact (this k1 htdr (k2.trans htdi.symm)).trans htm
          have hout : arg ∈ t1.outputs := by
            have : t1.outputs = m.outputs := congrArg (·.outputs) ht1
            rw [this]; exact hmo
          obtain ⟨w, hw⟩ := k4 arg hout
          obtain ⟨v', _, hv'⟩ := h.cache.stored _ r td arg w hr htd hw
          unfold readGathered
          rw [htd]
          have hv2 : l.sched.cache.get? (formatKey td.groupId td.spawningTaskId arg) = some v' := hv'
          simp only [hv2]
          exact ⟨v', rfl⟩) ([], t.realizedDeps)
      refine ⟨[(arg, ops.ofList q.1)], q.2, ?_, ?_⟩
      · unfold bindStart
        rw [if_pos hgt, hcn]
        simp only [hcd]
        rw [hq]; rfl
      · rintro k ⟨_, hk⟩
        rw [htc] at hk
        have hk' : gatherArg ops s = some k := hk
        rw [hga] at hk'
        cases hk'
        simp [Dict.has, Dict.get?]
    · have hgt : t.purpose ≠ .gather := by
        have : t.purpose = t0.purpose := congrArg (·.purpose) hspec
        rw [this]; exact hgather
      refine ⟨t.overrides, t.realizedDeps, ?_, fun k hk => absurd hk.1 hgather⟩
      unfold bindStart
      rw [if_neg hgt]
  obtain ⟨dyn, deps, hst, hdyn⟩ := hstart
  obtain ⟨r1, hr1⟩ := hread ((getInputVars g t.toTaskSpec).required.filter (fun k => !dyn.has k && !t.overrides.has k)) (by
    intro k hk
    rw [List.mem_filter, hspec] at hk
    refine ⟨hk.1, fun ha => ?_⟩
    have := hk.2
    rw [hdyn k ha] at this
    simp at this)
  unfold bindTask
  simp only [hst, hr1, hr2]
  exact ⟨_, rfl⟩

/-- The value of a `Parallelizable` is an output of its task. -/
theorem BlockCtx.expander_output (c : BlockCtx ops g all ov c0 requested nodes specs) {s : TaskSpec T V} (hs : s ∈ specs)
    {d e : Node T V} (hd : d ∈ nodes) (hk : d.kind = .collect) (he : e ∈ nodes) (hf : Feeds g e.name d.name)
    (hse : s.nodes = [e]) : e.name ∈ s.outputs := by
  obtain ⟨arg, a1, a2, a3, a4⟩ := c.param d hd hk
  -- somebody in the block uses it
  obtain ⟨x, hxb, hxe⟩ : ∃ x, InBlock g d.name x ∧ DependsOn g x e.name := by
    obtain ⟨hne, ⟨y, hy1, hy2⟩, e', he', hr⟩ := a2
    have hfe : Feeds g e' d.name := ⟨he', y, hy1, hy2.trans hr⟩
    have hee : e' = e.name := c.blocks.one_start d hd hk _ _ hfe hf
    subst hee
    have key : ∀ {b : Name}, Reaches (InsideEdge g) arg b → Expander g b →
        b = arg ∨ ∃ x, Reaches (InsideEdge g) arg x ∧ InsideEdge g x b := by
      intro b h hb
      cases h with
      | refl => exact .inl rfl
      | step h ed => exact .inr ⟨_, h, ed⟩
    rcases key hr hf.1 with h | ⟨x, hx, ed⟩
    · rw [h] at he'; exact absurd he' hne
    · exact ⟨x, ⟨ed.1, ⟨y, hy1, hy2.trans hx⟩, e.name, hf.1, .step (.refl _) ed⟩, ed.2⟩
  obtain ⟨xn, hxn, rfl⟩ := c.blocks.whole d hd hk x (.inr hxb)
  obtain ⟨p, hp, hpn⟩ := c.task_of hxn
  obtain ⟨n, hn, hke⟩ := hxe
  have hxg := c.blocks.in_graph xn hxn
  rw [hxg] at hn
  cases hn
  have hmem : e ∈ s.nodes := by rw [hse]; simp
  have hnot : e.name ∉ p.nodes.map (·.name) := by
    intro hm
    obtain ⟨e2, he2, hee2⟩ := List.mem_map.1 hm
    have := c.part.same_group (c.spec hp).group (c.spec hs).group he2 hmem hee2
    have hnn : p.nodes = s.nodes := congrArg (·.nodes) this
    rw [hnn, hse, List.mem_singleton] at hpn
    rw [hpn] at hxb
    exact hxb.1 hf.1
  obtain ⟨q, hq, _, hqo, hqn⟩ := c.dep_task hp hpn (c.blocks.untouched d hd hk _ (.inr (.inl hxb))) hke hnot
    (c.blocks.untouched d hd hk _ (.inl hf)) he rfl
  have := c.keys.node_disjoint q hq s hs e hqn e hmem rfl
  rw [← spec_unique c.hp hq hs this]
  exact hqo

theorem BlockCtx.finish_ok (c : BlockCtx ops g all ov c0 requested nodes specs) {l : Loop T V}
    (h : AInv ops g specs c0 l) {id : Name} (hid : id ∈ l.futures.keys) {r : Dict Name V}
    (hr : ∃ t, .submit t ∈ l.trace ∧ t.id = id ∧ executeTask g t = .ok r) :
    ∃ l', Verif.finishTask ops l id r = .ok l' := by
  have hpool : ∃ t, l.sched.pool.get? id = some t := by
    cases hx : l.sched.pool.get? id with
    | some t => exact ⟨t, rfl⟩
    | none =>
      have := h.loop.pool_none _ hx
      rcases h.loop.fut_ok id hid with h' | h' <;> rw [this] at h' <;> cases h'
  obtain ⟨t, ht⟩ := hpool
  obtain ⟨hti, htr⟩ := h.loop.pool_ok _ _ ht
  have hq : l.sched.queue.all (fun t => (l.sched.states.set id .successful).get? t.id == some .queued) = true := by
    rw [List.all_eq_true]
    intro q hqm
    obtain ⟨h1, h2, _⟩ := h.loop.queue_ok q hqm
    have hne : id ≠ q.id := fun he => h2 (he ▸ hid)
    rw [Dict.get?_set, if_neg hne, get?_of_stOf h1 (by simp)]
    rfl
  by_cases hpe : t.purpose = .expand
  · obtain ⟨d, e, k1, k2, k3, k4, k5, k6, k7⟩ := c.expand_task htr.spec hpe
    obtain ⟨t1, hsub, htid, hex⟩ := hr
    obtain ⟨pre, t0, hps⟩ := c.parSub h.loop.toTInv h.submit hsub
    -- the submitted task is this one
    have hs0 : t0.toTaskSpec = t.toTaskSpec := by
      have hid0 : t0.id = t.id := by rw [hti, ← htid]; exact hps.core.id_eq.symm
      have htstat : t.id = t.baseId := by
        cases htr with
        | static s a b => rfl
        | coll s e x items a b y => rfl
        | inst s e x items i item a b y z => exact absurd hpe b.2.1
      cases hps.real with
      | static s a b => exact spec_unique c.hp a htr.spec (hid0.trans htstat)
      | coll s e x items a b y => exact spec_unique c.hp a htr.spec (hid0.trans htstat)
      | inst s e x items i item a b y z =>
        exact absurd (hid0.trans htstat) (c.hp.inst_fresh s a _ htr.spec e i b)
    obtain ⟨q1, q2⟩ := hps.result c hex
    have hout : e.name ∈ t0.outputs := by
      have : t0.outputs = t.outputs := congrArg (·.outputs) hs0
      rw [this]
      exact c.expander_output htr.spec k1 k2 k3 k4 k5
    obtain ⟨v, hv⟩ := q2 _ hout
    have hden : ParDen ops g all ov e.name v := by
      have := (q1 _ _ hv).1
      have hcase := c.case_of hps.real
      cases hcase with
      | plain => exact this
      | gather => exact this
      | branch _ _ _ _ _ h6 =>
        have hp0 : t.purpose ≠ .expand := by rw [← hs0]; exact h6.2.1
        exact absurd hpe hp0
    obtain ⟨ls, rfl⟩ := c.expander_value htr.spec hpe (by rw [k7]; rfl) hden
    have hwr : ∃ c', writeTaskResults ops l.sched.cache t r = .ok c' := by
      unfold writeTaskResults
      rw [if_pos hpe, k7]
      simp only [hv, c.law]
      exact ⟨_, rfl⟩
    obtain ⟨c', hc'⟩ := hwr
    have hmk : ∃ s, s = t.toTaskSpec ∧ t = mkTask s none none [] := by
      cases htr with
      | static s a b => exact ⟨s, rfl, rfl⟩
      | coll s e x items a b y => exact absurd hpe (by have : s.purpose = .gather := b.2; show s.purpose ≠ .expand; rw [this]; simp)
      | inst s e x items i item a b y z => exact absurd hpe b.2.1
    obtain ⟨s, hst, hmk⟩ := hmk
    have hsp : s.purpose = .expand := by rw [hst]; exact hpe
    obtain ⟨n, v', items, w1, w2, w3, w4⟩ := write_expand (c := l.sched.cache) (c' := c') (r := r) hsp (by rw [← hmk]; exact hc')
    have hne : n = e := by
      rw [hst] at w1
      rw [k7] at w1
      cases w1; rfl
    subst hne
    unfold finishTask updateTaskState
    simp only [TaskState.isTerminal, hq, Bool.not_true, Bool.false_eq_true, if_false, ht, if_true, hc', hpe, k7,
      formatKey_plain, w4, c.law]
    exact ⟨_, rfl⟩
  · unfold finishTask updateTaskState
    simp only [TaskState.isTerminal, hq, Bool.not_true, Bool.false_eq_true, if_false, ht, if_true, writeTaskResults,
      if_neg hpe]
    exact ⟨_, rfl⟩

/-- A run in which everything has a value: nothing is raised, unless by a broken executor. -/
theorem BlockCtx.no_fault (c : BlockCtx ops g all ov c0 requested nodes specs) (hval : HasValues ops g all ov nodes)
    {l : Loop T V} (h : AInv ops g specs c0 l) (hqd : QueueDeps l) {e : TaskErr}
    {tr : List (Event T V)} (hf : Fault ops g ex l e tr) : ∃ id, e = .broken id := by
  have hkk : ∀ id f, l.futures.get? id = some f → id ∈ l.futures.keys := fun id f hf =>
    Dict.mem_keys_iff.2 ⟨f, hf⟩
  cases hf with
  | bind t rest e h1 h2 =>
    obtain ⟨t', ht'⟩ := c.bind_ok hval h hqd (t := t) (by rw [h1]; simp)
    rw [ht'] at h2; cases h2
  | submit t rest t' e h1 h2 h3 h4 =>
    have hs := SubmitOk.submit c.hp c.keys c.start_plain h.loop h.cache h.queue h.submit h1 h2
    have hg := c.goodTrace h.loop.toTInv h.submit
    obtain ⟨t0, hsub⟩ := BlockCtx.submitted hs h.loop.done_nodup hg
    obtain ⟨r, hr⟩ := c.exec_ok hval hsub
    rw [hr] at h4; cases h4
  | later id t e h1 h2 =>
    obtain ⟨pre, t0, hsub⟩ := c.parSub h.loop.toTInv h.submit (h.loop.fut_later id t h1).1
    obtain ⟨r, hr⟩ := c.exec_ok hval hsub
    rw [hr] at h2; cases h2
  | broken id t h1 => exact ⟨id, rfl⟩
  | finishNow id r e l' h1 h2 =>
    obtain ⟨l'', hl⟩ := c.finish_ok h (hkk _ _ h1) (h.loop.fut_now id r h1)
    rw [hl] at h2; cases h2
  | finishLater id t r e l' h1 h2 h3 =>
    obtain ⟨a, b⟩ := h.loop.fut_later id t h1
    obtain ⟨l'', hl⟩ := c.finish_ok h (hkk _ _ h1) ⟨t, a, b, h2⟩
    rw [hl] at h3; cases h3

end Verif
