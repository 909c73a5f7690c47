import Verif.Proofs.ParRun

/-! Task-based runs with blocks: the values tasks are given and return. -/
namespace Verif
variable {T V : Type}
variable {ops : TaskOps T V} {g : Graph T V} {all ov c0 : Dict Name V} {requested : List Name}
  {nodes : List (Node T V)} {specs : List (TaskSpec T V)}

/-- Everything reported so far is right, and complete. -/
def ParTrace (ops : TaskOps T V) (g : Graph T V) (all ov : Dict Name V) (specs : List (TaskSpec T V))
    (tr : List (Event T V)) : Prop :=
  ∀ id r, .done id r ∈ tr → ∃ t0, Realized ops specs tr t0 ∧ t0.id = id ∧
    (∀ k v, r.get? k = some v → ParDen ops g all (envOf ov t0) k v ∧ ∃ n ∈ t0.nodes, n.name = k) ∧
    ∀ k ∈ t0.outputs, ∃ v, r.get? k = some v

/-- A submitted task and what is known then. -/
structure ParSub (ops : TaskOps T V) (g : Graph T V) (all ov c0 : Dict Name V) (specs : List (TaskSpec T V))
    (pre : List (Event T V)) (t t0 : Task T V) : Prop where
  real : Realized ops specs pre t0
  core : SameCore t t0
  deps : ∀ d ∈ t0.deps, Done pre d
  bound : Bound ops g specs c0 pre t t0
  once : (doneIds pre).Nodup
  good : ParTrace ops g all ov specs pre

/-- `k` is the collected parameter of the collector task `t0`. -/
def IsArg (ops : TaskOps T V) (t0 : Task T V) (k : Name) : Prop :=
  t0.purpose = .gather ∧ gatherArg ops t0.toTaskSpec = some k

theorem realized_dep (hp : PlanOk specs) {pre : List (Event T V)} {t0 : Task T V} (hr : Realized ops specs pre t0)
    {p : TaskSpec T V} (hps : p ∈ specs) (hpd : p.baseId ∈ t0.baseDeps) (hnm : ∀ e, ¬ p.MemberOf e) :
    p.baseId ∈ t0.deps := by
  cases hr with
  | static s a b => exact (mkTask_deps s none none [] _).2 hpd
  | inst s e x items i item a b c d => exact (instTask_deps hp a b _).2 hpd
  | coll s e x items a b c =>
    refine (collTask_deps _).2 (.inr ⟨hpd, ?_⟩)
    rintro ⟨m, hm, hme, he⟩
    exact hnm e (spec_unique hp hm hps he ▸ hme)

section Facts
variable (c : BlockCtx ops g all ov c0 requested nodes specs)
include c

theorem BlockCtx.c0_override {k : Name} {v w : V} (h : ov.get? k = some w) (hc : c0.get? k = some v) : v = w := by
  rw [c.start] at hc
  cases ha : all.get? k with
  | some u => rw [ha] at hc; cases hc; exact c.agree k _ w ha h
  | none => rw [ha, Option.none_or, h] at hc; cases hc; rfl

theorem BlockCtx.gather_arg {s : TaskSpec T V} {d : Node T V} (hd : d ∈ nodes) (hk : d.kind = .collect)
    (hs : s.nodes = [d]) {arg : Name} (ha : CollectParam ops d arg) : gatherArg ops s = some arg := by
  unfold gatherArg collectorNode
  rw [hs]
  simp only [List.find?_cons, hk, beq_self_eq_true, Option.bind_some]
  unfold collectDependency
  obtain ⟨⟨t, ht, hc⟩, huniq⟩ := ha
  cases hf : d.inputTypes.find? (fun p => ops.isCollect p.2.1) with
  | none =>
    rw [List.find?_eq_none] at hf
    exact absurd hc (hf _ ht)
  | some p =>
    have h1 := List.find?_some hf
    have h2 := List.mem_of_find?_eq_some hf
    rw [Option.map_some, huniq p h2 h1]

theorem BlockCtx.env_some {pre : List (Event T V)} {t0 : Task T V} (h : TaskCase ops g nodes specs pre t0) {k : Name}
    {w : V} (hk : ov.get? k = some w) : (envOf ov t0).get? k = some w := by
  cases h with
  | plain => exact hk
  | @branch s d e items i item h1 h2 h3 h4 h5 =>
    have : (ov.set e.name item).get? k = some w := by
      rw [Dict.get?_set, if_neg]
      · exact hk
      · rintro rfl
        rw [c.blocks.untouched d h2 h3 _ (.inl h5)] at hk; cases hk
    exact this
  | gather => exact hk

theorem BlockCtx.env_none {pre : List (Event T V)} {t0 : Task T V} (h : TaskCase ops g nodes specs pre t0) {k : Name}
    (hk : (envOf ov t0).get? k = none) : ov.get? k = none := by
  cases ho : ov.get? k with
  | none => rfl
  | some w => rw [c.env_some h ho] at hk; cases hk

theorem BlockCtx.env_node {pre : List (Event T V)} {t0 : Task T V} (h : TaskCase ops g nodes specs pre t0)
    {n : Node T V} (hn : n ∈ t0.nodes) : (envOf ov t0).get? n.name = ov.get? n.name := by
  cases h with
  | plain => rfl
  | @branch s d e items i item h1 h2 h3 h4 h5 h6 h7 =>
    have : (ov.set e.name item).get? n.name = ov.get? n.name := by
      rw [Dict.get?_set, if_neg]
      intro he
      have := ((h7 n).1 hn).2.1
      rw [← he] at this
      exact this h5.1
    exact this
  | gather => rfl

theorem BlockCtx.env_ext {pre : List (Event T V)} {t0 : Task T V} (h : TaskCase ops g nodes specs pre t0)
    {k : Name} {n : Node T V} (hn : g.get? k = some n) (hk : n.kind = .external) :
    (envOf ov t0).get? k = ov.get? k := by
  cases h with
  | plain => rfl
  | @branch s d e items i item h1 h2 h3 h4 h5 h6 h7 =>
    have : (ov.set e.name item).get? k = ov.get? k := by
      rw [Dict.get?_set, if_neg]
      rintro rfl
      obtain ⟨m, hm, hke⟩ := h5.1
      rw [hn] at hm; cases hm
      rw [hk] at hke; cases hke
    exact this
  | gather => rfl

theorem BlockCtx.own {pre : List (Event T V)} {t0 : Task T V} (h : TaskCase ops g nodes specs pre t0) {k : Name}
    {v : V} (hk : t0.dynamicInputs.get? k = some v) : ParDen ops g all (envOf ov t0) k v := by
  cases h with
  | plain => cases hk
  | @branch s d e items i item h1 h2 h3 h4 h5 h6 h7 =>
    have hk' : Dict.get? [(e.name, item)] k = some v := hk
    rw [Dict.get?_cons] at hk'
    split at hk'
    · rename_i he
      subst he
      cases hk'
      refine .override (c.blocks.in_graph e h4) ?_
      have : (ov.set e.name v).get? e.name = some v := Dict.get?_set_self _ _ _
      exact this
    · cases hk'
  | gather => cases hk

omit c in
theorem depends_rank {rank : Name → Nat} (hr : Ranked g rank) {x y : Name} (h : Reaches (DependsOn g) x y) :
    rank y ≤ rank x := by
  induction h with
  | refl => exact Nat.le_refl _
  | step _ e ih => obtain ⟨n, hn, hd⟩ := e; have := hr _ _ hn _ hd; omega

/-- A parameter that comes from outside of the task has the value it has for the whole call. -/
theorem BlockCtx.transfer {pre : List (Event T V)} {t0 : Task T V} (h : TaskCase ops g nodes specs pre t0)
    {n : Node T V} (hn : n ∈ t0.nodes) (hno : ov.get? n.name = none) {k : Name} (hk : k ∈ n.inputTypes.keys)
    (hks : k ∉ t0.nodes.map (·.name)) (hdyn : t0.dynamicInputs.get? k = none) {v : V} :
    ParDen ops g all ov k v ↔ ParDen ops g all (envOf ov t0) k v := by
  cases h with
  | plain => exact Iff.rfl
  | gather => exact Iff.rfl
  | @branch s d e items i item h1 h2 h3 h4 h5 h6 h7 =>
    obtain ⟨hnn, hnb⟩ := (h7 n).1 hn
    have hng := c.blocks.in_graph n hnn
    have hke : k ≠ e.name := by
      rintro rfl
      have hk' : Dict.get? [(e.name, item)] e.name = none := hdyn
      rw [Dict.get?_cons, if_pos rfl] at hk'
      cases hk'
    refine c.outer h2 h3 h4 h5 (item := item) ?_ hke ?_ ?_
    · exact c.run_closed.params _ n (.inl ⟨n, hnn, rfl⟩) hng hno k hk
    · intro hb
      obtain ⟨m, hm, rfl⟩ := c.blocks.whole d h2 h3 k (.inr hb)
      exact hks (List.mem_map.2 ⟨m, (h7 m).2 ⟨hm, hb⟩, rfl⟩)
    · intro hr
      obtain ⟨rank, hrk⟩ := c.acyclic
      have hlt := hnb.rank hrk
      have hlt2 := hrk _ n hng k hk
      have := depends_rank hrk hr
      omega

/-- What the task depends on, apart from the collected parameter, is computed once. -/
theorem BlockCtx.not_member {pre : List (Event T V)} {t0 : Task T V} (h : TaskCase ops g nodes specs pre t0)
    {n : Node T V} (hn : n ∈ t0.nodes) {k : Name} (hk : k ∈ n.inputTypes.keys) (ha : ¬ IsArg ops t0 k)
    {p : TaskSpec T V} (hp : p ∈ specs) (hpd : p.baseId ∈ t0.baseDeps) {dn : Node T V} (hdn : dn ∈ p.nodes)
    (hdk : dn.name = k) (e' : Name) : ¬ p.MemberOf e' := by
  intro hm
  cases h with
  | @plain s m h1 h2 h3 h4 h5 h6 => exact h6 (c.hp.member_use s h1 p hp e' hm hpd).2
  | @branch s d e items i item h1 h2 h3 h4 h5 h6 h7 =>
    exact h6.2.2 (c.hp.member_use s h1 p hp e' hm hpd).2
  | @gather s d e items h1 h2 h3 h4 h5 h6 h7 h8 =>
    have hco := c.hp.member_use s h1 p hp e' hm hpd
    have he : e' = "expand-" ++ e.name := by
      have := hco.1; rw [h6.1] at this; exact (Option.some.inj this).symm
    obtain ⟨d', e2, k1, k2, k3, k4, k5, k6⟩ := c.member hp hm
    have hee : e.name = e2.name := prefix_inj (he.symm.trans k5)
    have hdd : d.name = d'.name := c.blocks.one_end d h2 h3 d' k1 k2 e.name h5 (by rw [hee]; exact k4)
    obtain ⟨arg, a1, a2, a3, a4⟩ := c.param d h2 h3
    have hn' : n ∈ s.nodes := hn
    rw [h7, List.mem_singleton] at hn'
    subst hn'
    have hka : k = arg := a3 k hk (by rw [hdd, ← hdk]; exact ((k6 dn).1 hdn).2)
    subst hka
    exact ha ⟨h6.2, c.gather_arg h2 h3 h7 a1⟩

theorem BlockCtx.kinds {pre : List (Event T V)} {t0 : Task T V} (h : TaskCase ops g nodes specs pre t0)
    (hp : t0.purpose ≠ .gather) {n : Node T V} (hn : n ∈ t0.nodes) : n.kind ≠ .collect := by
  cases h with
  | @plain s m h1 h2 h3 h4 h5 h6 =>
    have hn' : n ∈ s.nodes := hn
    rw [h2, List.mem_singleton] at hn'
    subst hn'
    exact h4
  | @branch s d e items i item h1 h2 h3 h4 h5 h6 h7 =>
    obtain ⟨h8, h9⟩ := (h7 n).1 hn
    exact (c.block_kind h2 h3 h8 h9).1
  | @gather s d e items h1 h2 h3 h4 h5 h6 h7 h8 => exact absurd h6.2 hp

/-- Results of a task that is not repeated are values of the whole call. -/
theorem BlockCtx.static_value {pre : List (Event T V)} (hg : ParTrace ops g all ov specs pre) {p : TaskSpec T V}
    (hp : p ∈ specs) (hm : ∀ e, ¬ p.MemberOf e) {r : Dict Name V} (hr : .done p.baseId r ∈ pre) :
    (∀ k v, r.get? k = some v → ParDen ops g all ov k v ∧ ∃ n ∈ p.nodes, n.name = k) ∧
    ∀ k ∈ p.outputs, ∃ v, r.get? k = some v := by
  obtain ⟨t0, h1, h2, h3, h4⟩ := hg _ r hr
  cases h1 with
  | static s a b =>
    have := spec_unique c.hp a hp h2
    subst this
    exact ⟨h3, h4⟩
  | inst s e x items i item a b y hi => exact absurd h2 (c.hp.inst_fresh s a p hp e i b)
  | coll s e x items a b y =>
    have := spec_unique c.hp a hp h2
    subst this
    exact ⟨h3, h4⟩

theorem BlockCtx.expander_value {p : TaskSpec T V} (hp : p ∈ specs) (hpe : p.purpose = .expand) {k : Name}
    (hk : (expanderNode p.nodes).map (·.name) = some k) {w : V} (hw : ParDen ops g all ov k w) :
    ∃ l, w = ops.ofList l := by
  obtain ⟨d, e, h1, h2, h3, h4, h5, h6, h7⟩ := c.expand_task hp hpe
  rw [h7] at hk
  cases hk
  have hke := c.expander_kind h3 h4.1
  have hge := c.blocks.in_graph e h3
  cases hw with
  | override k1 k2 => rw [c.blocks.untouched d h1 h2 _ (.inl h4)] at k2; cases k2
  | input k1 k2 k3 => rw [hge] at k1; cases k1; rw [hke] at k3; cases k3
  | call val k1 k2 k3 k4 k5 k6 k7 k8 =>
    rw [hge] at k1; cases k1
    unfold Listed at k8
    rw [if_pos hke] at k8
    obtain ⟨l, _, rfl⟩ := k8
    exact ⟨l, rfl⟩
  | collect val k1 k2 k3 => rw [hge] at k1; cases k1; rw [hke] at k3; cases k3

theorem BlockCtx.stored {p : TaskSpec T V} (hp : p ∈ specs) {k : Name} {w : V} (hw : ParDen ops g all ov k w) :
    p.storedValue ops k w = some w := by
  unfold TaskSpec.storedValue
  split
  · rename_i h
    obtain ⟨l, rfl⟩ := c.expander_value hp h.1 h.2 hw
    rw [c.law]; rfl
  · rfl

end Facts

section Sub
variable (c : BlockCtx ops g all ov c0 requested nodes specs) {pre : List (Event T V)} {t t0 : Task T V}
  (h : ParSub ops g all ov c0 specs pre t t0)
include c h

theorem ParSub.given_get (k : Name) : t.given.get? k = (t0.overrides.get? k).or (t.dynamicInputs.get? k) := by
  have ho : t.overrides = t0.overrides := congrArg (·.overrides) h.core.spec_eq
  unfold Task.given
  rw [Dict.get?_merge _ _ (by rw [ho]; exact c.keys.overrides_nodup _ h.real.spec), ho]

theorem ParSub.ov_in {k : Name} (hk : k ∈ t0.nodes.map (·.name)) : t0.overrides.get? k = ov.get? k := by
  rw [(c.spec h.real.spec).ov, if_pos hk]

theorem ParSub.ov_out {k : Name} (hk : k ∉ t0.nodes.map (·.name)) : t0.overrides.get? k = none := by
  rw [(c.spec h.real.spec).ov, if_neg hk]

/-- The values a task is given are right, apart from the collected list. -/
theorem ParSub.given_den {k : Name} (ha : ¬ IsArg ops t0 k) {v : V} (hk : t.given.get? k = some v) :
    ParDen ops g all (envOf ov t0) k v := by
  have hcase := c.case_of h.real
  rw [h.given_get c] at hk
  have hovr : t0.overrides.get? k = some v → ParDen ops g all (envOf ov t0) k v := by
    intro ho
    obtain ⟨n, hn, rfl⟩ := c.keys.overrides_in _ h.real.spec k v ho
    rw [h.ov_in c (List.mem_map.2 ⟨n, hn, rfl⟩)] at ho
    exact .override (c.node_graph h.real.spec hn) (c.env_some hcase ho)
  cases ho : t0.overrides.get? k with
  | some w => rw [ho] at hk; cases hk; exact hovr ho
  | none =>
    rw [ho, Option.none_or] at hk
    cases hdyn : t0.dynamicInputs.get? k with
    | some w =>
      have := h.bound.own k w hdyn
      rw [hk] at this
      cases this
      exact c.own hcase hdyn
    | none =>
      rcases h.bound.good k v hk with h1 | ⟨_, h1⟩ | ⟨h1, h1', _⟩ | ⟨h1, h2, h3⟩
      · rw [hdyn] at h1; cases h1
      · exact hovr h1
      · exact absurd ⟨h1, h1'⟩ ha
      · -- a variable of the task
        obtain ⟨iv1, iv2, _⟩ := getInputVars_spec g t0.toTaskSpec
        have hvar : ∃ n ∈ t0.nodes, t0.overrides.get? n.name = none ∧ ((n.kind = .external ∧ k = n.name) ∨
            (k ∈ n.dependencies ∧ OutsideVar g t0.overrides (t0.nodes.map (·.name)) k)) := by
          rcases h1 with h1 | h1
          · obtain ⟨n, a, b, d | d⟩ := (iv1 k).1 h1
            · exact ⟨n, a, b, .inl d⟩
            · exact ⟨n, a, b, .inr ⟨d.1, d.2.1⟩⟩
          · obtain ⟨n, a, b, d⟩ := iv2 k h1
            exact ⟨n, a, b, .inr d⟩
        obtain ⟨n, hn, hno, hnc⟩ := hvar
        have hng := c.node_graph h.real.spec hn
        have hno' : ov.get? n.name = none := by rw [← h.ov_in c (List.mem_map.2 ⟨n, hn, rfl⟩)]; exact hno
        have hkg : ∃ kn, g.get? k = some kn := by
          rcases hnc with ⟨_, rfl⟩ | ⟨hd, _⟩
          · exact ⟨n, hng⟩
          · exact c.wf.deps_in hng (by rw [← c.wf.deps_eq hng]; exact hd)
        obtain ⟨kn, hkn⟩ := hkg
        -- a variable that is not an input is a parameter from another task
        have hout : kn.kind ≠ .external → k ∈ n.inputTypes.keys ∧ k ∉ t0.nodes.map (·.name) := by
          intro hext
          rcases hnc with ⟨hx, rfl⟩ | ⟨hd, ho1, ho2⟩
          · rw [hng] at hkn; cases hkn; exact absurd hx hext
          · refine ⟨by rw [← c.wf.deps_eq hng]; exact hd, ?_⟩
            rcases ho2 with ⟨dn, ha, hb⟩ | ho2
            · rw [hkn] at ha; cases ha; exact absurd hb hext
            · exact ho2
        -- values of the whole call will do
        have hglob : ParDen ops g all ov k v → ParDen ops g all (envOf ov t0) k v := by
          intro hd
          by_cases hext : kn.kind = .external
          · cases hd with
            | override k1 k2 => exact .override k1 (c.env_some hcase k2)
            | input k1 k2 k3 k4 => exact .input k1 (by rw [c.env_ext hcase k1 k3]; exact k2) k3 k4
            | call val k1 k2 k3 => rw [hkn] at k1; cases k1; exact absurd hext k3
            | collect val k1 k2 k3 => rw [hkn] at k1; cases k1; rw [hext] at k3; cases k3
          · obtain ⟨a, b⟩ := hout hext
            exact (c.transfer hcase hn hno' a b hdyn).1 hd
        apply hglob
        rcases h2 with h2 | h2
        · cases hov : ov.get? k with
          | some w => rw [c.c0_override hov h2]; exact .override hkn hov
          | none =>
            have hall : all.get? k = some v := by
              rw [c.start, hov, Option.or_none] at h2; exact h2
            by_cases hext : kn.kind = .external
            · exact .input hkn hov hext hall
            · obtain ⟨hd', hks⟩ := hout hext
              rcases c.closed n (c.node_mem h.real.spec hn) hno' k hd' with ⟨dn, hdn, hdd⟩ | ⟨_, ⟨dn, ha, hb⟩, _⟩
              · obtain ⟨p, hp, hpd, hpo, hpn⟩ := c.dep_task h.real.spec hn hno' hd' hks hov hdn hdd
                have hnm := c.not_member hcase hn hd' ha hp hpd hpn hdd
                have hdep := realized_dep c.hp h.real hp hpd hnm
                obtain ⟨r, hr⟩ := h.deps _ hdep
                obtain ⟨g1, g2⟩ := c.static_value h.good hp hnm hr
                obtain ⟨w, hw⟩ := g2 k hpo
                have hst := h3 p hp hdep r w hr hw
                rw [c.stored hp (g1 k w hw).1] at hst
                cases hst
                exact (g1 k _ hw).1
              · rw [hkn] at ha; cases ha; exact absurd hb hext
        · obtain ⟨p, hp, hnm, r, w, hr, hw, hst⟩ := produced_plain
            (fun hrep => inputVar_plain c.keys hrep h.real.spec h1) h2
          obtain ⟨g1, _⟩ := c.static_value h.good hp hnm hr
          rw [c.stored hp (g1 k w hw).1] at hst
          cases hst
          exact (g1 k _ hw).1

/-- A parameter of a node of the task, from outside: either it is given or it is an absent optional input. -/
theorem ParSub.outside {n : Node T V} (hn : n ∈ t0.nodes)
    (hno : ov.get? n.name = none) {d : Name} (hd : d ∈ n.inputTypes.keys) (hds : d ∉ t0.nodes.map (·.name)) :
    (∃ v, t.given.get? d = some v) ∨
      (t.given.get? d = none ∧ Absent g all (envOf ov t0) d ∧ n.requires d = false) := by
  have hcase := c.case_of h.real
  have hng := c.node_graph h.real.spec hn
  have hgiv : t.given.get? d = t.dynamicInputs.get? d := by
    rw [h.given_get c, h.ov_out c hds, Option.none_or]
  by_cases harg : IsArg ops t0 d
  · obtain ⟨a, v, ha, hv⟩ := h.bound.gather harg.1
    rw [harg.2] at ha
    cases ha
    exact .inl ⟨v, by rw [hgiv]; exact hv⟩
  cases hdyn : t0.dynamicInputs.get? d with
  | some w => exact .inl ⟨w, by rw [hgiv]; exact h.bound.own d w hdyn⟩
  | none =>
  have hvar : n ∈ t0.nodes ∧ t0.overrides.get? n.name = none ∧ d ∈ n.dependencies ∧
      OutsideVar g t0.overrides (t0.nodes.map (·.name)) d := by
    refine ⟨hn, ?_, ?_, h.ov_out c hds, .inr hds⟩
    · rw [h.ov_in c (List.mem_map.2 ⟨n, hn, rfl⟩)]; exact hno
    · rw [c.wf.deps_eq hng]; exact hd
  obtain ⟨iv1, _, iv3⟩ := getInputVars_spec g t0.toTaskSpec
  have hreqv : d ∈ (getInputVars g t0.toTaskSpec).required → ∃ v, t.given.get? d = some v := by
    intro hr
    rcases h.bound.required d hr with h1 | ⟨v, h1⟩
    · rw [hgiv]; exact h1
    · rw [h.ov_out c hds] at h1; cases h1
  by_cases hreq : n.requires d = true
  · exact .inl (hreqv ((iv1 d).2 ⟨n, hn, hvar.2.1, .inr ⟨hvar.2.2.1, hvar.2.2.2, hreq⟩⟩))
  · have hreq' : n.requires d = false := by simpa using hreq
    rcases iv3 d ⟨n, hn, hvar.2.1, .inr hvar.2.2⟩ with h1 | h1
    · exact .inl (hreqv h1)
    · have hopt := h.bound.optional d h1
      rw [← hgiv] at hopt
      cases hc : c0.get? d with
      | some w => exact .inl (hopt (.inl ⟨w, hc⟩))
      | none =>
        have hc' := hc
        rw [c.start, Option.or_eq_none_iff] at hc'
        have hfromdep : (∃ dn ∈ nodes, dn.name = d) → ∃ v, t.given.get? d = some v := by
          rintro ⟨dn, hdn, hdd⟩
          obtain ⟨p, hp, hpd, hpo, hpn⟩ := c.dep_task h.real.spec hn hno hd hds hc'.2 hdn hdd
          have hnm := c.not_member hcase hn hd harg hp hpd hpn hdd
          have hdep := realized_dep c.hp h.real hp hpd hnm
          obtain ⟨r, hr⟩ := h.deps _ hdep
          obtain ⟨w, hw⟩ := (c.static_value h.good hp hnm hr).2 d hpo
          exact hopt (.inr ⟨p, hp, hdep, r, w, hr, hw⟩)
        rcases c.closed n (c.node_mem h.real.spec hn) hno d hd with hin | ⟨_, ⟨dn, ha, hb⟩, _⟩
        · exact .inl (hfromdep hin)
        · cases hgv : t.given.get? d with
          | some v => exact .inl ⟨v, rfl⟩
          | none => exact .inr ⟨rfl, ⟨dn, ha, hb, hc'.1, by rw [c.env_ext hcase ha hb]; exact hc'.2⟩, hreq'⟩

/-- An input node that belongs to the task is given. -/
theorem ParSub.inside_external {n : Node T V} (hn : n ∈ t0.nodes)
    (hext : n.kind = .external) : ∃ v, t.given.get? n.name = some v := by
  cases ho : t0.overrides.get? n.name with
  | some v => exact ⟨v, by rw [h.given_get c, ho]; rfl⟩
  | none =>
    obtain ⟨iv1, _, _⟩ := getInputVars_spec g t0.toTaskSpec
    have hgiv : t.given.get? n.name = t.dynamicInputs.get? n.name := by
      rw [h.given_get c, ho, Option.none_or]
    rw [hgiv]
    rcases h.bound.required n.name ((iv1 _).2 ⟨n, hn, ho, .inl ⟨hext, rfl⟩⟩) with h1 | ⟨v, h1⟩
    · exact h1
    · rw [ho] at h1; cases h1

theorem ParSub.dyn_none {k : Name} (hk : t.given.get? k = none) : t.dynamicInputs.get? k = none := by
  rw [h.given_get c, Option.or_eq_none_iff] at hk
  exact hk.2

theorem ParSub.env_none {n : Node T V} (hn : n ∈ t0.nodes) (hg : t.given.get? n.name = none) :
    ov.get? n.name = none ∧ (envOf ov t0).get? n.name = none := by
  rw [h.given_get c, Option.or_eq_none_iff, h.ov_in c (List.mem_map.2 ⟨n, hn, rfl⟩)] at hg
  exact ⟨hg.1, by rw [c.env_node (c.case_of h.real) hn]; exact hg.1⟩

/-- Values of the nodes of an ordinary task, computed from what the task is given, are right. -/
theorem ParSub.sound (hng : t0.purpose ≠ .gather) {k : Name} {v : V}
    (hd : Den g t.dynamicInputs t.given k v) (hk : k ∈ t0.nodes.map (·.name)) :
    ParDen ops g all (envOf ov t0) k v := by
  have hcase := c.case_of h.real
  have harg : ∀ k, ¬ IsArg ops t0 k := fun k ha => hng ha.1
  induction hd with
  | override h1 h2 => exact h.given_den c (harg _) h2
  | input h1 h2 h3 h4 => rw [h.dyn_none c h2] at h4; cases h4
  | @call k n v val h1 h2 h3 h4 h5 h6 ih =>
    obtain ⟨n', hn', rfl⟩ := List.mem_map.1 hk
    have hnn : n' = n := by
      have := c.node_graph h.real.spec hn'
      rw [h1] at this; cases this; rfl
    subst hnn
    obtain ⟨hno, hne⟩ := h.env_none c hn' h2
    refine .call val h1 hne h3 (c.kinds hcase hng hn') ?_ ?_ h6 ?_
    · intro d w hd hv
      by_cases hds : d ∈ t0.nodes.map (·.name)
      · exact ih d w hd hv hds
      · rcases h.outside c hn' hno hd hds with ⟨w', hw'⟩ | ⟨hnone, habs, _⟩
        · obtain ⟨dn, hdn⟩ := c.wf.deps_in h1 hd
          have : Den g t.dynamicInputs t.given d w' := .override hdn hw'
          rw [(h4 d w hd hv).det this]
          exact h.given_den c (harg _) hw'
        · obtain ⟨dn, ha, hb, _, _⟩ := habs
          exact absurd (h4 d w hd hv) (Absent.not_den ⟨dn, ha, hb, h.dyn_none c hnone, hnone⟩)
    · intro d ty hd hv
      obtain ⟨a, dn, hdn, hext, hi, ho⟩ := h5 d ty hd hv
      refine ⟨a, ?_⟩
      have hdk : d ∈ n'.inputTypes.keys := List.mem_map.2 ⟨_, hd, rfl⟩
      by_cases hds : d ∈ t0.nodes.map (·.name)
      · exfalso
        obtain ⟨m, hm, rfl⟩ := List.mem_map.1 hds
        have := c.node_graph h.real.spec hm
        rw [hdn] at this; cases this
        obtain ⟨w, hw⟩ := h.inside_external c hm hext
        rw [ho] at hw; cases hw
      · rcases h.outside c hn' hno hdk hds with ⟨w', hw'⟩ | ⟨_, habs, _⟩
        · rw [ho] at hw'; cases hw'
        · exact habs
    · unfold Listed
      split
      · rename_i hx
        obtain ⟨l, rfl⟩ := c.listed _ _ h1 hx _ _ h6
        exact ⟨l, c.law l, rfl⟩
      · rfl

end Sub

/-- The value given to a collector for the collected parameter. -/
theorem ParSub.collected (c : BlockCtx ops g all ov c0 requested nodes specs) {pre : List (Event T V)} {t : Task T V}
    {s : TaskSpec T V} {d e : Node T V} {items : List V}
    (h : ParSub ops g all ov c0 specs pre t (collTask specs ("expand-" ++ e.name) items s))
    (h2 : d ∈ nodes) (h3 : d.kind = .collect) (h4 : e ∈ nodes) (h5 : Feeds g e.name d.name)
    (h6 : s.CollectorOf ("expand-" ++ e.name)) (h7 : s.nodes = [d])
    (h8 : Yielded ops specs pre ("expand-" ++ e.name) e.name items) {arg : Name} (ha : CollectParam ops d arg)
    (hb : InBlock g d.name arg) (hall : all.get? arg = none) {v : V} (hv : t.given.get? arg = some v) :
    (∃ l, ParDen ops g all ov e.name l ∧ ops.toList l = some items) ∧
    ∃ vs, v = ops.ofList vs ∧ vs.length = items.length ∧
      ∀ (i : Nat) item w, items[i]? = some item → vs[i]? = some w → ParDen ops g all (ov.set e.name item) arg w := by
  have hs : s ∈ specs := h.real.spec
  constructor
  · obtain ⟨p, k1, k2, k3, ⟨n, k4, k5⟩, r, l, k6, k7, k8⟩ := h8
    have hnm : ∀ e, ¬ p.MemberOf e := fun e he => he.2.1 k3
    rw [← k2] at k6
    exact ⟨l, ((c.static_value h.good k1 hnm k6).1 _ _ k7).1, k8⟩
  obtain ⟨rank, hrk⟩ := c.acyclic
  have hargne : arg ∉ (collTask specs ("expand-" ++ e.name) items s).nodes.map (·.name) := by
    intro hm
    have hm' : arg ∈ s.nodes.map (·.name) := hm
    rw [h7] at hm'
    simp only [List.map_cons, List.map_nil, List.mem_singleton] at hm'
    have := hb.rank hrk
    rw [hm'] at this
    omega
  have hao : ov.get? arg = none := c.blocks.untouched d h2 h3 arg (.inr (.inl hb))
  have hga : gatherArg ops s = some arg := c.gather_arg h2 h3 h7 ha
  -- the repeated task
  obtain ⟨an, hann, hane⟩ := c.blocks.whole d h2 h3 arg (.inr hb)
  have hak : arg ∈ d.inputTypes.keys := by
    obtain ⟨⟨ty, hty, _⟩, _⟩ := ha
    exact mem_keys_of_mem hty
  obtain ⟨m, hm, hmd, hmo, hmn⟩ := c.dep_task hs (n := d) (by rw [h7]; simp)
    (c.blocks.untouched d h2 h3 _ (.inr (.inr rfl))) hak hargne hao hann hane
  have hmem : m.MemberOf ("expand-" ++ e.name) := by
    obtain ⟨_, ⟨gb, hgb, _, i2, i3, i5⟩, _⟩ := c.blocks.toBlockShape.trio_in c.wf ⟨rank, hrk⟩ h2 h3 h4 h5
    have hsame := c.part.same_group (c.spec hm).group hgb hmn ((i5 an).2 ⟨hann, by rw [hane]; exact hb⟩) rfl
    have q1 := congrArg NodeGroup.spawning hsame
    have q2 := congrArg NodeGroup.purpose hsame
    rw [i2] at q1
    rw [i3] at q2
    have q2' : m.purpose = .block := q2
    exact ⟨q1, by rw [q2']; simp, by rw [q2']; simp⟩
  have hvd : t.dynamicInputs.get? arg = some v := by
    rw [h.given_get c, h.ov_out c hargne, Option.none_or] at hv
    exact hv
  rcases h.bound.good arg v hvd with k | ⟨k, _⟩ | ⟨_, _, s', e', x, items', vs, k1, k2, k3, k4, k5, k6⟩ | ⟨k1, k2, k3⟩
  · cases k
  · exact absurd h6.2 k
  · have hss : s' = s := by
      have : (collTask specs ("expand-" ++ e.name) items s).toTaskSpec = (collTask specs e' items' s').toTaskSpec := by
        rw [k3]
      exact this.symm
    subst hss
    have hee : e' = "expand-" ++ e.name := by
      have := k2.1
      rw [h6.1] at this
      exact (Option.some.inj this).symm
    subst hee
    obtain ⟨_, hii⟩ := Yielded.unique c.hp h.once k4 h8
    subst hii
    obtain ⟨q1, q2⟩ := k6 m hm hmem hmd ⟨an, hmn, hane⟩
    refine ⟨vs, k5, q1, ?_⟩
    intro i item w hi hw
    have hil : i < items'.length := (List.getElem?_eq_some_iff.1 hi).1
    obtain ⟨r, w', p1, p2, p3⟩ := q2 i hil
    rw [hw] at p3
    cases p3
    obtain ⟨t1, r1, r2, r3, _⟩ := h.good _ r p1
    cases r1 with
    | static s2 a b => exact absurd r2.symm (c.hp.inst_fresh m hm s2 a _ i hmem)
    | coll s2 e2 x2 items2 a b y => exact absurd r2.symm (c.hp.inst_fresh m hm s2 a _ i hmem)
    | inst s2 e2 x2 items2 i2 item2 a b y hi2 =>
      obtain ⟨z1, z2, _⟩ := c.hp.inst_inj s2 a m hm e2 _ i2 i b hmem r2
      subst z1 z2
      obtain ⟨z3, z4⟩ := Yielded.unique c.hp h.once y h8
      subst z3 z4
      rw [hi] at hi2
      cases hi2
      exact (r3 arg w p2).1
  · exfalso
    rcases k2 with k2 | k2
    · rw [c.start, hall, hao] at k2; cases k2
    · obtain ⟨p, hp, hnm, r, w, hr, hw, hst⟩ := produced_plain
        (fun hrep => inputVar_plain c.keys hrep h.real.spec k1) k2
      obtain ⟨_, n, hn, hne⟩ := (c.static_value h.good hp hnm hr).1 arg w hw
      have := c.keys.node_disjoint p hp m hm n hn an hmn (by rw [hne, hane])
      exact hnm _ (spec_unique c.hp hm hp this.symm ▸ hmem)

/-- Values computed by a collector are right. -/
theorem ParSub.sound_gather (c : BlockCtx ops g all ov c0 requested nodes specs) {pre : List (Event T V)}
    {t t0 : Task T V} (h : ParSub ops g all ov c0 specs pre t t0) (hp : t0.purpose = .gather) {k : Name} {v : V}
    (hd : Den g t.dynamicInputs t.given k v) (hk : k ∈ t0.nodes.map (·.name)) :
    ParDen ops g all (envOf ov t0) k v := by
  cases c.case_of h.real with
  | plain _ _ _ _ _ h6 => exact absurd hp h6
  | branch _ _ _ _ _ h6 => exact absurd hp h6.2.2
  | @gather s d e items h1 h2 h3 h4 h5 h6 h7 h8 =>
    have henv : envOf ov (collTask specs ("expand-" ++ e.name) items s) = ov := rfl
    rw [henv]
    have hk' : k ∈ s.nodes.map (·.name) := hk
    rw [h7] at hk'
    simp only [List.map_cons, List.map_nil, List.mem_singleton] at hk'
    subst hk'
    obtain ⟨arg, a1, a2, a3, a4⟩ := c.param d h2 h3
    have hga : gatherArg ops s = some arg := c.gather_arg h2 h3 h7 a1
    obtain ⟨rank, hrk⟩ := c.acyclic
    have hdmem : d ∈ (collTask specs ("expand-" ++ e.name) items s).nodes := by
      have : d ∈ s.nodes := by rw [h7]; simp
      exact this
    have hnames : ∀ x, x ∈ (collTask specs ("expand-" ++ e.name) items s).nodes.map (·.name) → x = d.name := by
      intro x hx
      have hx' : x ∈ s.nodes.map (·.name) := hx
      rw [h7] at hx'
      simpa using hx'
    have hnarg : ∀ x, x ≠ arg → ¬ IsArg ops (collTask specs ("expand-" ++ e.name) items s) x := by
      rintro x hx ⟨_, ha⟩
      have ha' : gatherArg ops s = some x := ha
      rw [hga] at ha'
      exact hx (Option.some.inj ha').symm
    have hdarg : d.name ≠ arg := by
      intro he
      have := a2.rank hrk
      rw [he] at this
      omega
    have hdg := c.blocks.in_graph d h2
    have hout : ∀ x ∈ d.inputTypes.keys, x ∉ (collTask specs ("expand-" ++ e.name) items s).nodes.map (·.name) := by
      intro x hx hm
      have := hrk _ d hdg x hx
      rw [hnames x hm] at this
      omega
    cases hd with
    | override k1 k2 => exact h.given_den c (hnarg _ hdarg) k2
    | input k1 k2 k3 k4 => rw [hdg] at k1; cases k1; rw [h3] at k3; cases k3
    | @call _ n _ val k1 k2 k3 k4 k5 k6 =>
      rw [hdg] at k1
      cases k1
      obtain ⟨hno, _⟩ := h.env_none c hdmem k2
      have hak : arg ∈ d.inputTypes.keys := by
        obtain ⟨⟨ty, hty, _⟩, _⟩ := a1
        exact mem_keys_of_mem hty
      -- the collected parameter
      obtain ⟨v0, hv0⟩ : ∃ v0, t.given.get? arg = some v0 := by
        rcases h.outside c hdmem hno hak (hout _ hak) with h' | ⟨_, ⟨dn, b1, b2, _⟩, _⟩
        · exact h'
        · exfalso
          obtain ⟨an, hann, hane⟩ := c.blocks.whole d h2 h3 arg (.inr a2)
          have := c.blocks.in_graph an hann
          rw [hane, b1] at this
          cases this
          exact (c.block_kind h2 h3 hann (by rw [hane]; exact a2)).2.1 b2
      obtain ⟨⟨l, hl1, hl2⟩, vs, rfl, hvs1, hvs2⟩ := h.collected c h2 h3 h4 h5 h6 h7 h8 a1 a2 a4 hv0
      obtain ⟨an, hang⟩ := c.wf.deps_in hdg hak
      have hval : val arg = some (ops.ofList vs) := by
        cases hva : val arg with
        | some w => rw [(k4 arg w hak hva).det (.override hang hv0)]
        | none =>
          obtain ⟨ty, hty⟩ := Dict.mem_keys_iff.1 hak
          obtain ⟨_, _, _, _, _, ho⟩ := k5 arg ty (Dict.get?_mem hty) hva
          rw [hv0] at ho; cases ho
      refine .collect val hdg hno h3 a1 h5 hl1 hl2 hvs1 hvs2 hval ?_ ?_ k6
      · intro x w hx hxa hxv
        rcases h.outside c hdmem hno hx (hout x hx) with ⟨w', hw'⟩ | ⟨hnone, ⟨dn, b1, b2, _⟩, _⟩
        · obtain ⟨dn, hdn⟩ := c.wf.deps_in hdg hx
          rw [(k4 x w hx hxv).det (.override hdn hw')]
          exact h.given_den c (hnarg _ hxa) hw'
        · exact absurd (k4 x w hx hxv) (Absent.not_den ⟨dn, b1, b2, h.dyn_none c hnone, hnone⟩)
      · intro x ty hx hxv
        obtain ⟨a, dn, hdn, hext, hi, ho⟩ := k5 x ty hx hxv
        refine ⟨a, ?_⟩
        have hxk : x ∈ d.inputTypes.keys := mem_keys_of_mem hx
        rcases h.outside c hdmem hno hxk (hout x hxk) with ⟨w', hw'⟩ | ⟨_, habs, _⟩
        · rw [ho] at hw'; cases hw'
        · exact habs

/-- The results of a task are right and complete. -/
theorem ParSub.result (c : BlockCtx ops g all ov c0 requested nodes specs) {pre : List (Event T V)}
    {t t0 : Task T V} (h : ParSub ops g all ov c0 specs pre t t0) {r : Dict Name V}
    (hr : executeTask g t = .ok r) :
    (∀ k v, r.get? k = some v → ParDen ops g all (envOf ov t0) k v ∧ ∃ n ∈ t0.nodes, n.name = k) ∧
    ∀ k ∈ t0.outputs, ∃ v, r.get? k = some v := by
  have hnodes : t.nodes = t0.nodes := congrArg (·.nodes) h.core.spec_eq
  have houts : t.outputs = t0.outputs := congrArg (·.outputs) h.core.spec_eq
  have hovs : t.overrides = t0.overrides := congrArg (·.overrides) h.core.spec_eq
  unfold executeTask at hr
  have hspec := executeSubdag_spec c.wf t.nodes (by rw [hnodes]; exact fun n hn => c.node_graph h.real.spec hn)
    t.dynamicInputs t.given
  split at hr
  · cases hr
  · rename_i st hst
    have hst' : executeSubdag g t.nodes t.dynamicInputs t.given = .ok st := hst
    rw [hst'] at hspec
    simp only at hspec
    obtain ⟨hinv, hall⟩ := hspec
    cases hr
    constructor
    · intro k v hk
      have hk1 := Dict.get?_mem hk
      rw [List.mem_filter] at hk1
      have hkc : st.computed.get? k = some v :=
        Dict.get?_of_mem (executeSubdag_nodup hst') hk1.1
      have hkn : ∃ n ∈ t0.nodes, n.name = k := by
        simp only [Bool.or_eq_true, List.contains_iff_mem] at hk1
        rcases hk1.2 with h1 | h1
        · rw [houts] at h1
          exact c.keys.outputs_in _ h.real.spec k h1
        · rw [hovs] at h1
          obtain ⟨w, hw⟩ := (Dict.has_eq_true_iff _ _).1 h1
          exact c.keys.overrides_in _ h.real.spec k w hw
      refine ⟨?_, hkn⟩
      have hkn' : k ∈ t0.nodes.map (·.name) := by
        obtain ⟨n, hn, he⟩ := hkn
        exact List.mem_map.2 ⟨n, hn, he⟩
      by_cases hp : t0.purpose = .gather
      · exact h.sound_gather c hp (hinv.den k v hkc) hkn'
      · exact h.sound c hp (hinv.den k v hkc) hkn'
    · intro k hk
      obtain ⟨n, hn, rfl⟩ := c.keys.outputs_in _ h.real.spec k hk
      rcases hall n (by rw [hnodes]; exact hn) with ⟨v, hv⟩ | ⟨hext, habs⟩
      · refine ⟨v, ?_⟩
        apply Dict.get?_of_mem
        · exact (List.filter_sublist.map _).nodup (executeSubdag_nodup hst')
        · rw [List.mem_filter]
          refine ⟨Dict.get?_mem hv, ?_⟩
          simp only [Bool.or_eq_true, List.contains_iff_mem]
          exact .inl (by rw [houts]; exact hk)
      · obtain ⟨w, hw⟩ := h.inside_external c hn hext
        obtain ⟨_, _, _, _, ho⟩ := habs
        rw [hw] at ho; cases ho

end Verif
