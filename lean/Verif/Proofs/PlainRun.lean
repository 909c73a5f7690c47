import Verif.Proofs.PlainPlan
import Verif.Proofs.RunFacts
import Verif.Proofs.Subdag

/-! Values computed by task-based runs of plain plans. -/
namespace Verif
variable {T V : Type}
variable {ops : TaskOps T V} {g : Graph T V} {all ov c0 : Dict Name V} {requested : List Name}
  {nodes : List (Node T V)} {groups : List (NodeGroup T V)} {specs : List (TaskSpec T V)}

/-- The situation: a plain grouping of the nodes needed for the request, of a well-formed acyclic graph. -/
structure PlainCtx (g : Graph T V) (all ov c0 : Dict Name V) (requested : List Name) (nodes : List (Node T V))
    (groups : List (NodeGroup T V)) (specs : List (TaskSpec T V)) : Prop where
  wf : WellFormed g
  acyclic : Acyclic g
  plain : PlainGroups nodes groups
  plan : createTaskPlan groups requested ov = some specs
  in_graph : ∀ n ∈ nodes, g.get? n.name = some n
  closed : ∀ n ∈ nodes, ov.get? n.name = none → ∀ d ∈ n.inputTypes.keys, (∃ dn ∈ nodes, dn.name = d) ∨
    ((∃ ty, n.inputTypes.get? d = some (ty, .optional)) ∧ (∃ dn, g.get? d = some dn ∧ dn.kind = .external) ∧
      all.get? d = none)
  agree : ∀ k v w, all.get? k = some v → ov.get? k = some w → v = w
  start : ∀ k, c0.get? k = (all.get? k).or (ov.get? k)
  keys : KeysOk specs
  start_plain : HasRepeated specs → ∀ key v, c0.get? key = some v → ColonFree key

/-- Everything reported so far is right, and complete. -/
def GoodTrace (g : Graph T V) (all ov : Dict Name V) (specs : List (TaskSpec T V)) (tr : List (Event T V)) : Prop :=
  ∀ id r, .done id r ∈ tr → (∀ k v, r.get? k = some v → Den g all ov k v) ∧
    ∀ s ∈ specs, s.baseId = id → ∀ k ∈ s.outputs, ∃ v, r.get? k = some v

theorem PlainCtx.c0_override (c : PlainCtx g all ov c0 requested nodes groups specs) {k : Name} {v w : V}
    (h : ov.get? k = some w) (hc : c0.get? k = some v) : v = w := by
  rw [c.start] at hc
  cases ha : all.get? k with
  | some u => rw [ha] at hc; cases hc; exact c.agree k _ w ha h
  | none => rw [ha, Option.none_or, h] at hc; cases hc; rfl

theorem PlainCtx.spec (c : PlainCtx g all ov c0 requested nodes groups specs) {s : TaskSpec T V} (hs : s ∈ specs) :
    PlanSpec groups requested ov s := (createTaskPlan_spec c.plan).2 s hs

theorem PlainCtx.node_mem (c : PlainCtx g all ov c0 requested nodes groups specs) {s : TaskSpec T V} (hs : s ∈ specs)
    {n : Node T V} (hn : n ∈ s.nodes) : n ∈ nodes := (c.plain.covers n).1 ⟨_, (c.spec hs).group, hn⟩

theorem PlainCtx.node_graph (c : PlainCtx g all ov c0 requested nodes groups specs) {s : TaskSpec T V} (hs : s ∈ specs)
    {n : Node T V} (hn : n ∈ s.nodes) : g.get? n.name = some n := c.in_graph n (c.node_mem hs hn)

theorem PlainCtx.plain_spec (c : PlainCtx g all ov c0 requested nodes groups specs) {s : TaskSpec T V} (hs : s ∈ specs) :
    s.spawning = none ∧ s.purpose ≠ .expand ∧ s.purpose ≠ .gather := c.plain.plain _ (c.spec hs).group

theorem PlainCtx.stored (c : PlainCtx g all ov c0 requested nodes groups specs) {s : TaskSpec T V} (hs : s ∈ specs)
    (k : Name) (v : V) : s.storedValue ops k v = some v := by
  unfold TaskSpec.storedValue
  rw [if_neg]
  exact fun h => (c.plain_spec hs).2.1 h.1

/-- Every node to run is in a task; if it is not overridden, its task has it as an output when something outside uses it. -/
theorem PlainCtx.task_of (c : PlainCtx g all ov c0 requested nodes groups specs) {n : Node T V} (hn : n ∈ nodes) :
    ∃ p ∈ specs, n ∈ p.nodes := by
  obtain ⟨gr, hg, hgn⟩ := (c.plain.covers n).2 hn
  obtain ⟨s, hs, rfl⟩ := plan_of_group c.plan hg
  exact ⟨s, hs, hgn⟩

/-- A function used by a node of another task: the task that computes it is a dependency and has it as an output. -/
theorem PlainCtx.dep_task (c : PlainCtx g all ov c0 requested nodes groups specs) {s : TaskSpec T V} (hs : s ∈ specs)
    {n : Node T V} (hn : n ∈ s.nodes) (hno : ov.get? n.name = none) {d : Name} (hd : d ∈ n.inputTypes.keys)
    (hds : d ∉ s.nodes.map (·.name)) (hdo : ov.get? d = none) {dn : Node T V} (hdn : dn ∈ nodes) (hdd : dn.name = d) :
    ∃ p ∈ specs, p.baseId ∈ s.baseDeps ∧ d ∈ p.outputs := by
  obtain ⟨p, hp, hdp⟩ := c.task_of hdn
  have hdeps : d ∈ n.dependencies := by rw [c.wf.deps_eq (c.node_graph hs hn)]; exact hd
  refine ⟨p, hp, ?_, ?_⟩
  · exact ((c.spec hs).deps _).2 ⟨n, hn, hno, d, hdeps, hdo, hds, c.plain.toPartition.n2t.2
      ⟨hdo, _, (c.spec hp).group, rfl, dn, hdp, hdd⟩⟩
  · refine ((c.spec hp).outputs d).2 ⟨dn, hdp, hdd, hdo, .inr ⟨n.name, ?_, hno, ?_⟩⟩
    · refine (c.wf.consumers (d := d) (hdd ▸ c.in_graph dn hdn) _).2 ⟨n, c.node_graph hs hn, hd⟩
    · intro hm
      obtain ⟨n', hn', he⟩ := List.mem_map.1 hm
      have := c.plain.toPartition.same_group (c.spec hp).group (c.spec hs).group hn' hn he
      apply hds
      have hnn : p.nodes = s.nodes := congrArg (·.nodes) this
      rw [← hnn]
      exact List.mem_map.2 ⟨dn, hdp, hdd⟩

/-- A submitted task and what is known then. -/
structure Submitted (ops : TaskOps T V) (g : Graph T V) (all ov c0 : Dict Name V) (specs : List (TaskSpec T V))
    (pre : List (Event T V)) (t : Task T V) (s : TaskSpec T V) : Prop where
  mem : s ∈ specs
  core : SameCore t (mkTask s none none [])
  deps : ∀ d ∈ s.baseDeps, Done pre d
  bound : Bound ops g specs c0 pre t (mkTask s none none [])
  good : GoodTrace g all ov specs pre

/-- The overrides under which the nodes of a task are executed. -/
def Task.given (t : Task T V) : Dict Name V := Dict.merge t.dynamicInputs t.overrides

theorem Submitted.given_get (c : PlainCtx g all ov c0 requested nodes groups specs) {pre : List (Event T V)} {t : Task T V}
    {s : TaskSpec T V} (h : Submitted ops g all ov c0 specs pre t s) (k : Name) :
    t.given.get? k = (s.overrides.get? k).or (t.dynamicInputs.get? k) := by
  have ho : t.overrides = s.overrides := congrArg (·.overrides) h.core.spec_eq
  unfold Task.given
  rw [Dict.get?_merge _ _ (by rw [ho]; exact c.keys.overrides_nodup s h.mem), ho]

theorem Submitted.ov_in (c : PlainCtx g all ov c0 requested nodes groups specs) {pre : List (Event T V)} {t : Task T V}
    {s : TaskSpec T V} (h : Submitted ops g all ov c0 specs pre t s) {k : Name} (hk : k ∈ s.nodes.map (·.name)) :
    s.overrides.get? k = ov.get? k := by
  rw [(c.spec h.mem).ov, if_pos hk]

theorem Submitted.ov_out (c : PlainCtx g all ov c0 requested nodes groups specs) {pre : List (Event T V)} {t : Task T V}
    {s : TaskSpec T V} (h : Submitted ops g all ov c0 specs pre t s) {k : Name} (hk : k ∉ s.nodes.map (·.name)) :
    s.overrides.get? k = none := by
  rw [(c.spec h.mem).ov, if_neg hk]

/-- The values a task is given are right. -/
theorem Submitted.given_den (c : PlainCtx g all ov c0 requested nodes groups specs) {pre : List (Event T V)} {t : Task T V}
    {s : TaskSpec T V} (h : Submitted ops g all ov c0 specs pre t s) {k : Name} {v : V}
    (hk : t.given.get? k = some v) : Den g all ov k v := by
  rw [h.given_get c] at hk
  have hovr : s.overrides.get? k = some v → Den g all ov k v := by
    intro ho
    obtain ⟨n, hn, rfl⟩ := c.keys.overrides_in s h.mem k v ho
    rw [h.ov_in c (List.mem_map.2 ⟨n, hn, rfl⟩)] at ho
    exact .override (c.node_graph h.mem hn) ho
  cases ho : s.overrides.get? k with
  | some w => rw [ho] at hk; cases hk; exact hovr ho
  | none =>
    rw [ho, Option.none_or] at hk
    rcases h.bound.good k v hk with h1 | ⟨_, h1⟩ | ⟨h1, _⟩ | ⟨h1, h2, h3⟩
    · cases h1
    · exact hovr h1
    · exact absurd h1 (c.plain_spec h.mem).2.2
    · -- a variable of the task
      obtain ⟨iv1, iv2, _⟩ := getInputVars_spec g s
      have hvar : ∃ n ∈ s.nodes, s.overrides.get? n.name = none ∧ ((n.kind = .external ∧ k = n.name) ∨
          (k ∈ n.dependencies ∧ OutsideVar g s.overrides (s.nodes.map (·.name)) k)) := by
        rcases h1 with h1 | h1
        · obtain ⟨n, a, b, d | d⟩ := (iv1 k).1 h1
          · exact ⟨n, a, b, .inl d⟩
          · exact ⟨n, a, b, .inr ⟨d.1, d.2.1⟩⟩
        · obtain ⟨n, a, b, d⟩ := iv2 k h1
          exact ⟨n, a, b, .inr d⟩
      obtain ⟨n, hn, hno, hcase⟩ := hvar
      have hng := c.node_graph h.mem hn
      have hno' : ov.get? n.name = none := by rw [← h.ov_in c (List.mem_map.2 ⟨n, hn, rfl⟩)]; exact hno
      have hkg : ∃ kn, g.get? k = some kn := by
        rcases hcase with ⟨_, rfl⟩ | ⟨hd, _⟩
        · exact ⟨n, hng⟩
        · exact c.wf.deps_in hng (by rw [← c.wf.deps_eq hng]; exact hd)
      obtain ⟨kn, hkn⟩ := hkg
      rcases h2 with h2 | h2
      · cases hov : ov.get? k with
        | some w => rw [c.c0_override hov h2]; exact .override hkn hov
        | none =>
          have hall : all.get? k = some v := by
            rw [c.start, hov, Option.or_none] at h2; exact h2
          by_cases hext : kn.kind = .external
          · exact .input hkn hov hext hall
          · rcases hcase with ⟨hx, rfl⟩ | ⟨hd, ho1, ho2⟩
            · rw [hng] at hkn; cases hkn; exact absurd hx hext
            · have hout : k ∉ s.nodes.map (·.name) := by
                rcases ho2 with ⟨dn, ha, hb⟩ | ho2
                · rw [hkn] at ha; cases ha; exact absurd hb hext
                · exact ho2
              have hd' : k ∈ n.inputTypes.keys := by rw [← c.wf.deps_eq hng]; exact hd
              rcases c.closed n (c.node_mem h.mem hn) hno' k hd' with ⟨dn, hdn, hdd⟩ | ⟨_, ⟨dn, ha, hb⟩, _⟩
              · obtain ⟨p, hp, hpd, hpo⟩ := c.dep_task h.mem hn hno' hd' hout hov hdn hdd
                obtain ⟨r, hr⟩ := h.deps _ hpd
                obtain ⟨g1, g2⟩ := h.good _ r hr
                obtain ⟨w, hw⟩ := g2 p hp rfl k hpo
                have := h3 p hp ((mkTask_deps s none none [] _).2 hpd) r w hr hw
                rw [c.stored hp] at this
                cases this
                exact g1 k _ hw
              · rw [hkn] at ha; cases ha; exact absurd hb hext
      · obtain ⟨p, _, _, r, w, hr, hw, hst⟩ := produced_plain (fun hrep => inputVar_plain c.keys hrep h.mem h1) h2
        rw [c.stored (by assumption)] at hst
        cases hst
        exact (h.good _ r hr).1 k _ hw

/-- A parameter of a node of the task, from outside: either it is given or it is an absent optional input. -/
theorem Submitted.outside (c : PlainCtx g all ov c0 requested nodes groups specs) {pre : List (Event T V)} {t : Task T V}
    {s : TaskSpec T V} (h : Submitted ops g all ov c0 specs pre t s) {n : Node T V} (hn : n ∈ s.nodes)
    (hno : ov.get? n.name = none) {d : Name} (hd : d ∈ n.inputTypes.keys) (hds : d ∉ s.nodes.map (·.name)) :
    (∃ v, t.given.get? d = some v) ∨ (t.given.get? d = none ∧ Absent g all ov d ∧ n.requires d = false) := by
  have hng := c.node_graph h.mem hn
  have hvar : n ∈ s.nodes ∧ s.overrides.get? n.name = none ∧ d ∈ n.dependencies ∧
      OutsideVar g s.overrides (s.nodes.map (·.name)) d := by
    refine ⟨hn, ?_, ?_, h.ov_out c hds, .inr hds⟩
    · rw [h.ov_in c (List.mem_map.2 ⟨n, hn, rfl⟩)]; exact hno
    · rw [c.wf.deps_eq hng]; exact hd
  obtain ⟨iv1, _, iv3⟩ := getInputVars_spec g s
  have hgiv : t.given.get? d = t.dynamicInputs.get? d := by
    rw [h.given_get c, h.ov_out c hds, Option.none_or]
  have hreqv : d ∈ (getInputVars g s).required → ∃ v, t.given.get? d = some v := by
    intro hr
    rcases h.bound.required d hr with h1 | ⟨v, h1⟩
    · rw [hgiv]; exact h1
    · have h1' : s.overrides.get? d = some v := h1
      rw [h.ov_out c hds] at h1'; cases h1'
  by_cases hreq : n.requires d = true
  · exact .inl (hreqv ((iv1 d).2 ⟨n, hn, hvar.2.1, .inr ⟨hvar.2.2.1, hvar.2.2.2, hreq⟩⟩))
  · have hreq' : n.requires d = false := by simpa using hreq
    rcases iv3 d ⟨n, hn, hvar.2.1, .inr hvar.2.2⟩ with h1 | h1
    · exact .inl (hreqv h1)
    · have hopt := h.bound.optional d h1
      rw [← hgiv] at hopt
      cases hc : c0.get? d with
      | some w => exact .inl (hopt (.inl ⟨w, hc⟩))
      | none =>
        have hc' := hc
        rw [c.start, Option.or_eq_none_iff] at hc'
        have hfromdep : (∃ dn ∈ nodes, dn.name = d) → ∃ v, t.given.get? d = some v := by
          rintro ⟨dn, hdn, hdd⟩
          obtain ⟨p, hp, hpd, hpo⟩ := c.dep_task h.mem hn hno hd hds hc'.2 hdn hdd
          obtain ⟨r, hr⟩ := h.deps _ hpd
          obtain ⟨w, hw⟩ := (h.good _ r hr).2 p hp rfl d hpo
          exact hopt (.inr ⟨p, hp, (mkTask_deps s none none [] _).2 hpd, r, w, hr, hw⟩)
        rcases c.closed n (c.node_mem h.mem hn) hno d hd with hin | ⟨_, ⟨dn, ha, hb⟩, _⟩
        · exact .inl (hfromdep hin)
        · cases hgv : t.given.get? d with
          | some v => exact .inl ⟨v, rfl⟩
          | none => exact .inr ⟨rfl, ⟨dn, ha, hb, hc'.1, hc'.2⟩, hreq'⟩

/-- An input node that belongs to the task is given. -/
theorem Submitted.inside_external (c : PlainCtx g all ov c0 requested nodes groups specs) {pre : List (Event T V)}
    {t : Task T V} {s : TaskSpec T V} (h : Submitted ops g all ov c0 specs pre t s) {n : Node T V} (hn : n ∈ s.nodes)
    (hext : n.kind = .external) : ∃ v, t.given.get? n.name = some v := by
  cases ho : s.overrides.get? n.name with
  | some v => exact ⟨v, by rw [h.given_get c, ho]; rfl⟩
  | none =>
    obtain ⟨iv1, _, _⟩ := getInputVars_spec g s
    have hgiv : t.given.get? n.name = t.dynamicInputs.get? n.name := by
      rw [h.given_get c, ho, Option.none_or]
    rw [hgiv]
    rcases h.bound.required n.name ((iv1 _).2 ⟨n, hn, ho, .inl ⟨hext, rfl⟩⟩) with h1 | ⟨v, h1⟩
    · exact h1
    · have h1' : s.overrides.get? n.name = some v := h1
      rw [ho] at h1'; cases h1'

theorem Submitted.dyn_none (c : PlainCtx g all ov c0 requested nodes groups specs) {pre : List (Event T V)}
    {t : Task T V} {s : TaskSpec T V} (h : Submitted ops g all ov c0 specs pre t s) {k : Name}
    (hk : t.given.get? k = none) : t.dynamicInputs.get? k = none := by
  rw [h.given_get c, Option.or_eq_none_iff] at hk
  exact hk.2

/-- Values of the task's nodes, computed from what the task is given, are right. -/
theorem Submitted.sound (c : PlainCtx g all ov c0 requested nodes groups specs) {pre : List (Event T V)}
    {t : Task T V} {s : TaskSpec T V} (h : Submitted ops g all ov c0 specs pre t s) {k : Name} {v : V}
    (hd : Den g t.dynamicInputs t.given k v) (hk : k ∈ s.nodes.map (·.name)) : Den g all ov k v := by
  induction hd with
  | override h1 h2 => exact h.given_den c h2
  | input h1 h2 h3 h4 => rw [h.dyn_none c h2] at h4; cases h4
  | @call k n v val h1 h2 h3 h4 h5 h6 ih =>
    obtain ⟨n', hn', rfl⟩ := List.mem_map.1 hk
    have hnn : n' = n := by
      have := c.node_graph h.mem hn'
      rw [h1] at this; cases this; rfl
    subst hnn
    have hno : ov.get? n'.name = none := by
      rw [h.given_get c, Option.or_eq_none_iff, h.ov_in c hk] at h2
      exact h2.1
    refine .call val h1 hno h3 ?_ ?_ h6
    · intro d w hd hv
      by_cases hds : d ∈ s.nodes.map (·.name)
      · exact ih d w hd hv hds
      · rcases h.outside c hn' hno hd hds with ⟨w', hw'⟩ | ⟨hnone, habs, _⟩
        · obtain ⟨dn, hdn⟩ := c.wf.deps_in h1 hd
          have : Den g t.dynamicInputs t.given d w' := .override hdn hw'
          rw [(h4 d w hd hv).det this]
          exact h.given_den c hw'
        · obtain ⟨dn, ha, hb, _, _⟩ := habs
          exact absurd (h4 d w hd hv) (Absent.not_den ⟨dn, ha, hb, h.dyn_none c hnone, hnone⟩)
    · intro d ty hd hv
      obtain ⟨a, dn, hdn, hext, hi, ho⟩ := h5 d ty hd hv
      refine ⟨a, ?_⟩
      have hdk : d ∈ n'.inputTypes.keys := List.mem_map.2 ⟨_, hd, rfl⟩
      by_cases hds : d ∈ s.nodes.map (·.name)
      · exfalso
        obtain ⟨m, hm, rfl⟩ := List.mem_map.1 hds
        have := c.node_graph h.mem hm
        rw [hdn] at this; cases this
        obtain ⟨w, hw⟩ := h.inside_external c hm hext
        rw [ho] at hw; cases hw
      · rcases h.outside c hn' hno hdk hds with ⟨w', hw'⟩ | ⟨_, habs, _⟩
        · rw [ho] at hw'; cases hw'
        · exact habs

/-- Right values of the task's nodes are computed from what the task is given. -/
theorem Submitted.complete (c : PlainCtx g all ov c0 requested nodes groups specs) {pre : List (Event T V)}
    {t : Task T V} {s : TaskSpec T V} (h : Submitted ops g all ov c0 specs pre t s) {k : Name} {v : V}
    (hd : Den g all ov k v) (hk : k ∈ s.nodes.map (·.name)) : Den g t.dynamicInputs t.given k v := by
  induction hd with
  | override h1 h2 =>
    refine .override h1 ?_
    rw [h.given_get c, h.ov_in c hk, h2]; rfl
  | @input k n v h1 h2 h3 h4 =>
    obtain ⟨n', hn', rfl⟩ := List.mem_map.1 hk
    have := c.node_graph h.mem hn'
    rw [h1] at this; cases this
    obtain ⟨w, hw⟩ := h.inside_external c hn' h3
    rw [(Den.input h1 h2 h3 h4).det (h.given_den c hw)]
    exact .override h1 hw
  | @call k n v val h1 h2 h3 h4 h5 h6 ih =>
    obtain ⟨n', hn', rfl⟩ := List.mem_map.1 hk
    have hnn : n' = n := by
      have := c.node_graph h.mem hn'
      rw [h1] at this; cases this; rfl
    subst hnn
    cases hg : t.given.get? n'.name with
    | some w =>
      have : Den g all ov n'.name v := .call val h1 h2 h3 h4 h5 h6
      rw [this.det (h.given_den c hg)]
      exact .override h1 hg
    | none =>
      refine .call val h1 hg h3 ?_ ?_ h6
      · intro d w hd hv
        by_cases hds : d ∈ s.nodes.map (·.name)
        · exact ih d w hd hv hds
        · rcases h.outside c hn' h2 hd hds with ⟨w', hw'⟩ | ⟨_, habs, _⟩
          · obtain ⟨dn, hdn⟩ := c.wf.deps_in h1 hd
            rw [(h4 d w hd hv).det (h.given_den c hw')]
            exact .override hdn hw'
          · exact absurd (h4 d w hd hv) habs.not_den
      · intro d ty hd hv
        obtain ⟨a, habs⟩ := h5 d ty hd hv
        refine ⟨a, ?_⟩
        have hnone : t.given.get? d = none := by
          cases hx : t.given.get? d with
          | none => rfl
          | some w => exact absurd (h.given_den c hx) habs.not_den
        obtain ⟨dn, ha, hb, _, _⟩ := habs
        exact ⟨dn, ha, hb, h.dyn_none c hnone, hnone⟩

/-- The results of a task are right and complete. -/
theorem Submitted.result (c : PlainCtx g all ov c0 requested nodes groups specs) {pre : List (Event T V)}
    {t : Task T V} {s : TaskSpec T V} (h : Submitted ops g all ov c0 specs pre t s) {r : Dict Name V}
    (hr : executeTask g t = .ok r) :
    (∀ k v, r.get? k = some v → Den g all ov k v) ∧ ∀ k ∈ s.outputs, ∃ v, r.get? k = some v := by
  have hnodes : t.nodes = s.nodes := congrArg (·.nodes) h.core.spec_eq
  have houts : t.outputs = s.outputs := congrArg (·.outputs) h.core.spec_eq
  have hovs : t.overrides = s.overrides := congrArg (·.overrides) h.core.spec_eq
  unfold executeTask at hr
  have hspec := executeSubdag_spec c.wf t.nodes (by rw [hnodes]; exact fun n hn => c.node_graph h.mem hn)
    t.dynamicInputs t.given
  split at hr
  · cases hr
  · rename_i st hst
    have hst' : executeSubdag g t.nodes t.dynamicInputs t.given = .ok st := hst
    rw [hst'] at hspec
    simp only at hspec
    obtain ⟨hinv, hall⟩ := hspec
    cases hr
    constructor
    · intro k v hk
      have hk1 := Dict.get?_mem hk
      rw [List.mem_filter] at hk1
      have hkc : st.computed.get? k = some v :=
        Dict.get?_of_mem (executeSubdag_nodup hst') hk1.1
      have hkn : k ∈ s.nodes.map (·.name) := by
        simp only [Bool.or_eq_true, List.contains_iff_mem] at hk1
        rcases hk1.2 with h1 | h1
        · rw [houts] at h1
          obtain ⟨n, hn, he⟩ := c.keys.outputs_in s h.mem k h1
          exact List.mem_map.2 ⟨n, hn, he⟩
        · rw [hovs] at h1
          obtain ⟨w, hw⟩ := (Dict.has_eq_true_iff _ _).1 h1
          obtain ⟨n, hn, he⟩ := c.keys.overrides_in s h.mem k w hw
          exact List.mem_map.2 ⟨n, hn, he⟩
      exact h.sound c (hinv.den k v hkc) hkn
    · intro k hk
      obtain ⟨n, hn, rfl⟩ := c.keys.outputs_in s h.mem k hk
      rcases hall n (by rw [hnodes]; exact hn) with ⟨v, hv⟩ | ⟨hext, habs⟩
      · refine ⟨v, ?_⟩
        apply Dict.get?_of_mem
        · exact (List.filter_sublist.map _).nodup (executeSubdag_nodup hst')
        · rw [List.mem_filter]
          refine ⟨Dict.get?_mem hv, ?_⟩
          simp only [Bool.or_eq_true, List.contains_iff_mem]
          exact .inl (by rw [houts]; exact hk)
      · obtain ⟨w, hw⟩ := h.inside_external c hn hext
        obtain ⟨_, _, _, _, ho⟩ := habs
        rw [hw] at ho; cases ho

end Verif
