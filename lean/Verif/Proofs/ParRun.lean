import Verif.Proofs.ParDen
import Verif.Proofs.BlockPlan
import Verif.Proofs.PlainRun

/-! Task-based runs with blocks under the default grouping: what tasks are given. -/
namespace Verif
variable {T V : Type}
variable {ops : TaskOps T V} {g : Graph T V} {all ov c0 : Dict Name V} {requested : List Name}
  {nodes : List (Node T V)} {specs : List (TaskSpec T V)}

/-- The situation: the default grouping of the nodes needed for the request, with sealed blocks, of a well-formed acyclic
graph whose expanders return lists. -/
structure BlockCtx (ops : TaskOps T V) (g : Graph T V) (all ov c0 : Dict Name V) (requested : List Name)
    (nodes : List (Node T V)) (specs : List (TaskSpec T V)) : Prop where
  law : ∀ l, ops.toList (ops.ofList l) = some l
  wf : WellFormed g
  acyclic : Acyclic g
  blocks : SealedBlocks g nodes ov
  dash : ∀ n ∈ nodes, DashFree n.name
  plan : createTaskPlan (blockGroups g nodes) requested ov = some specs
  live : PlanLive specs
  closed : ∀ n ∈ nodes, ov.get? n.name = none → ∀ d ∈ n.inputTypes.keys, (∃ dn ∈ nodes, dn.name = d) ∨
    ((∃ ty, n.inputTypes.get? d = some (ty, .optional)) ∧ (∃ dn, g.get? d = some dn ∧ dn.kind = .external) ∧
      all.get? d = none)
  agree : ∀ k v w, all.get? k = some v → ov.get? k = some w → v = w
  start : ∀ k, c0.get? k = (all.get? k).or (ov.get? k)
  keys : KeysOk specs
  start_plain : HasRepeated specs → ∀ key v, c0.get? key = some v → ColonFree key
  listed : ∀ k n, g.get? k = some n → n.kind = .expand → ∀ kw v, n.fn kw = .ok v → ∃ l, v = ops.ofList l
  param : ∀ c ∈ nodes, c.kind = .collect → ∃ arg, CollectParam ops c arg ∧ InBlock g c.name arg ∧
    (∀ d ∈ c.inputTypes.keys, InBlock g c.name d → d = arg) ∧ all.get? arg = none
  not_requested : ∀ c ∈ nodes, c.kind = .collect → ∀ x, InBlock g c.name x → x ∉ requested

/-- The overrides that hold for a task: for a repeated task the expander is replaced by its element. -/
def envOf (ov : Dict Name V) (t0 : Task T V) : Dict Name V := Dict.merge ov t0.dynamicInputs

/-- The tasks of a run. -/
inductive TaskCase (ops : TaskOps T V) (g : Graph T V) (nodes : List (Node T V)) (specs : List (TaskSpec T V))
    (pre : List (Event T V)) : Task T V → Prop
  | plain {s : TaskSpec T V} {n : Node T V} : s ∈ specs → s.nodes = [n] → n ∈ nodes → n.kind ≠ .collect →
      (∀ c ∈ nodes, c.kind = .collect → ¬ InBlock g c.name n.name) → s.purpose ≠ .gather →
      (∀ e, ¬ s.MemberOf e) → TaskCase ops g nodes specs pre (mkTask s none none [])
  | branch {s : TaskSpec T V} {c e : Node T V} {items : List V} {i : Nat} {item : V} : s ∈ specs →
      c ∈ nodes → c.kind = .collect → e ∈ nodes → Feeds g e.name c.name →
      s.MemberOf ("expand-" ++ e.name) → (∀ n, n ∈ s.nodes ↔ n ∈ nodes ∧ InBlock g c.name n.name) →
      Yielded ops specs pre ("expand-" ++ e.name) e.name items → items[i]? = some item →
      TaskCase ops g nodes specs pre (instTask specs ("expand-" ++ e.name) e.name i item s)
  | gather {s : TaskSpec T V} {c e : Node T V} {items : List V} : s ∈ specs →
      c ∈ nodes → c.kind = .collect → e ∈ nodes → Feeds g e.name c.name →
      s.CollectorOf ("expand-" ++ e.name) → s.nodes = [c] →
      Yielded ops specs pre ("expand-" ++ e.name) e.name items →
      TaskCase ops g nodes specs pre (collTask specs ("expand-" ++ e.name) items s)

/-- The names a run deals with: nodes to run, and inputs. -/
def InRun (g : Graph T V) (nodes : List (Node T V)) (k : Name) : Prop :=
  (∃ n ∈ nodes, n.name = k) ∨ ∃ n, g.get? k = some n ∧ n.kind = .external

section Shape
variable (c : BlockCtx ops g all ov c0 requested nodes specs)
include c

theorem BlockCtx.spec {s : TaskSpec T V} (hs : s ∈ specs) : PlanSpec (blockGroups g nodes) requested ov s :=
  (createTaskPlan_spec c.plan).2 s hs

theorem BlockCtx.part : Partition nodes (blockGroups g nodes) := c.blocks.toBlockShape.partition c.wf c.acyclic c.dash

theorem BlockCtx.node_mem {s : TaskSpec T V} (hs : s ∈ specs) {n : Node T V} (hn : n ∈ s.nodes) : n ∈ nodes :=
  (c.part.covers n).1 ⟨_, (c.spec hs).group, hn⟩

theorem BlockCtx.node_graph {s : TaskSpec T V} (hs : s ∈ specs) {n : Node T V} (hn : n ∈ s.nodes) :
    g.get? n.name = some n := c.blocks.in_graph n (c.node_mem hs hn)

theorem BlockCtx.hp : PlanOk specs := c.live.toPlanOk

theorem BlockCtx.not_expander {d : Node T V} (hd : d ∈ nodes) (hk : d.kind ≠ .expand) : ¬ Expander g d.name := by
  rintro ⟨n, hn, he⟩
  rw [c.blocks.in_graph d hd] at hn
  cases hn; exact hk he

theorem BlockCtx.expander_kind {e : Node T V} (he : e ∈ nodes) (hx : Expander g e.name) : e.kind = .expand := by
  obtain ⟨n, hn, hk⟩ := hx
  rw [c.blocks.in_graph e he] at hn
  cases hn; exact hk

/-- What lies in a block is neither a collector nor an input. -/
theorem BlockCtx.block_kind {d n : Node T V} (hd : d ∈ nodes) (hk : d.kind = .collect) (hn : n ∈ nodes)
    (hb : InBlock g d.name n.name) : n.kind ≠ .collect ∧ n.kind ≠ .external ∧ n.kind ≠ .expand := by
  obtain ⟨rank, hr⟩ := c.acyclic
  refine ⟨?_, ?_, ?_⟩
  · intro hkn
    have := c.blocks.toBlockShape.owner hd hk hn hkn (x := n.name) (.inr (.inl hb)) (.inr (.inr rfl))
    have hlt := hb.rank hr
    rw [this] at hlt
    omega
  · intro hkn
    obtain ⟨h1, _, e, he, hre⟩ := hb
    have hnp := c.wf.external_no_params (c.blocks.in_graph n hn) hkn
    have : ∀ {a b : Name}, Reaches (InsideEdge g) a b → a = b ∨ ∃ d, InsideEdge g a d := by
      intro a b h
      induction h with
      | refl => exact .inl rfl
      | step _ ed ih =>
        rcases ih with rfl | h
        · exact .inr ⟨_, ed⟩
        · exact .inr h
    rcases this hre with h | ⟨d, _, nn, h2, h3⟩
    · rw [h] at h1; exact h1 he
    · rw [c.blocks.in_graph n hn] at h2
      cases h2
      rw [hnp] at h3; cases h3
  · intro hkn
    exact hb.1 ⟨n, c.blocks.in_graph n hn, hkn⟩

theorem BlockCtx.expand_task {s : TaskSpec T V} (hs : s ∈ specs) (hp : s.purpose = .expand) : ∃ d e : Node T V,
    d ∈ nodes ∧ d.kind = .collect ∧ e ∈ nodes ∧ Feeds g e.name d.name ∧ s.nodes = [e] ∧ s.baseId = "expand-" ++ e.name ∧
    expanderNode s.nodes = some e := by
  have hcs := c.blocks.toBlockShape.case c.wf c.acyclic (c.spec hs).group
  generalize hgr : s.toNodeGroup = gr at hcs
  have e2 : s.purpose = gr.purpose := by rw [← hgr]
  have e3 : s.nodes = gr.nodes := by rw [← hgr]
  have e4 : s.baseId = gr.baseId := by rw [← hgr]
  rw [hp] at e2
  cases hcs with
  | @expand d e j1 j2 j3 j4 =>
    refine ⟨d, e, j1, j2, j3, j4, rfl, rfl, ?_⟩
    have := c.expander_kind j3 j4.1
    simp [expanderNode, this]
  | block => cases e2
  | gather => cases e2
  | single => cases e2

/-- The name under which an expander yields is its node. -/
theorem BlockCtx.yield_name {pre : List (Event T V)} {e : Node T V} {x : Name} {items : List V}
    (hy : Yielded ops specs pre ("expand-" ++ e.name) x items) : x = e.name := by
  obtain ⟨s, h1, h2, h3, ⟨n, h4, h5⟩, _⟩ := hy
  obtain ⟨_, e', _, _, _, _, _, k2, k3⟩ := c.expand_task h1 h3
  rw [k3] at h4
  cases h4
  rw [h2] at k2
  rw [← h5, prefix_inj k2]

theorem BlockCtx.case_of {pre : List (Event T V)} {t0 : Task T V} (h : Realized ops specs pre t0) :
    TaskCase ops g nodes specs pre t0 := by
  have hcs := c.blocks.toBlockShape.case c.wf c.acyclic (c.spec h.spec).group
  generalize hgr : t0.toNodeGroup = gr at hcs
  have e1 : t0.spawning = gr.spawning := by rw [← hgr]
  have e2 : t0.purpose = gr.purpose := by rw [← hgr]
  have e3 : t0.nodes = gr.nodes := by rw [← hgr]
  cases h with
  | static s a b =>
    have e1' : s.spawning = gr.spawning := e1
    have e2' : s.purpose = gr.purpose := e2
    have e3' : s.nodes = gr.nodes := e3
    rw [b] at e1'
    have hmem : ∀ e, ¬ s.MemberOf e := by
      intro e he
      rw [TaskSpec.MemberOf, b] at he
      cases he.1
    cases hcs with
    | @expand d e j1 j2 j3 j4 =>
      have hke := c.expander_kind j3 j4.1
      refine .plain a e3' j3 (by rw [hke]; simp) ?_ (by rw [e2']; simp) hmem
      intro d' _ _ hb
      exact hb.1 j4.1
    | block => cases e1'
    | gather => cases e1'
    | @single n j1 j2 =>
      refine .plain a e3' j1 ?_ ?_ (by rw [e2']; simp) hmem
      · intro hk
        exact j2 n j1 hk (.inr (.inr rfl))
      · intro d hd hk hb
        exact j2 d hd hk (.inr (.inl hb))
  | inst s e x items i item a b y hi =>
    have e1' : s.spawning = gr.spawning := e1
    have e2' : s.purpose = gr.purpose := e2
    have e3' : s.nodes = gr.nodes := e3
    cases hcs with
    | expand => have b1 := b.1; rw [e1'] at b1; cases b1
    | @block d e' bn j1 j2 j3 j4 j5 =>
      have := b.1
      rw [e1'] at this
      cases this
      have hx := c.yield_name y
      subst hx
      exact .branch a j1 j2 j3 j4 b (fun n => by rw [e3']; exact j5 n) y hi
    | gather => exact absurd e2' b.2.2
    | single => have b1 := b.1; rw [e1'] at b1; cases b1
  | coll s e x items a b y =>
    have e1' : s.spawning = gr.spawning := e1
    have e2' : s.purpose = gr.purpose := e2
    have e3' : s.nodes = gr.nodes := e3
    cases hcs with
    | expand => have b1 := b.1; rw [e1'] at b1; cases b1
    | block => have b1 := b.2; rw [e2'] at b1; cases b1
    | @gather d e' j1 j2 j3 j4 =>
      have := b.1
      rw [e1'] at this
      cases this
      have hx := c.yield_name y
      subst hx
      exact .gather a j1 j2 j3 j4 b e3' y
    | single => have b1 := b.1; rw [e1'] at b1; cases b1

/-- Every node to run is in a task. -/
theorem BlockCtx.task_of {n : Node T V} (hn : n ∈ nodes) : ∃ p ∈ specs, n ∈ p.nodes := by
  obtain ⟨gr, hg, hgn⟩ := (c.part.covers n).2 hn
  obtain ⟨s, hs, rfl⟩ := plan_of_group c.plan hg
  exact ⟨s, hs, hgn⟩

/-- A function used by a node of another task: the task that computes it is a dependency and has it as an output. -/
theorem BlockCtx.dep_task {s : TaskSpec T V} (hs : s ∈ specs)
    {n : Node T V} (hn : n ∈ s.nodes) (hno : ov.get? n.name = none) {d : Name} (hd : d ∈ n.inputTypes.keys)
    (hds : d ∉ s.nodes.map (·.name)) (hdo : ov.get? d = none) {dn : Node T V} (hdn : dn ∈ nodes) (hdd : dn.name = d) :
    ∃ p ∈ specs, p.baseId ∈ s.baseDeps ∧ d ∈ p.outputs ∧ dn ∈ p.nodes := by
  obtain ⟨p, hp, hdp⟩ := c.task_of hdn
  have hdeps : d ∈ n.dependencies := by rw [c.wf.deps_eq (c.node_graph hs hn)]; exact hd
  refine ⟨p, hp, ?_, ?_, hdp⟩
  · exact ((c.spec hs).deps _).2 ⟨n, hn, hno, d, hdeps, hdo, hds, c.part.n2t.2
      ⟨hdo, _, (c.spec hp).group, rfl, dn, hdp, hdd⟩⟩
  · refine ((c.spec hp).outputs d).2 ⟨dn, hdp, hdd, hdo, .inr ⟨n.name, ?_, hno, ?_⟩⟩
    · refine (c.wf.consumers (d := d) (hdd ▸ c.blocks.in_graph dn hdn) _).2 ⟨n, c.node_graph hs hn, hd⟩
    · intro hm
      obtain ⟨n', hn', he⟩ := List.mem_map.1 hm
      have := c.part.same_group (c.spec hp).group (c.spec hs).group hn' hn he
      apply hds
      have hnn : p.nodes = s.nodes := congrArg (·.nodes) this
      rw [← hnn]
      exact List.mem_map.2 ⟨dn, hdp, hdd⟩

/-- The repeated task of a block. -/
theorem BlockCtx.member {m : TaskSpec T V} (hm : m ∈ specs) {e' : Name} (hme : m.MemberOf e') : ∃ d e : Node T V,
    d ∈ nodes ∧ d.kind = .collect ∧ e ∈ nodes ∧ Feeds g e.name d.name ∧ e' = "expand-" ++ e.name ∧
    ∀ n, n ∈ m.nodes ↔ n ∈ nodes ∧ InBlock g d.name n.name := by
  obtain ⟨k1, k2, k3⟩ := hme
  have hcs := c.blocks.toBlockShape.case c.wf c.acyclic (c.spec hm).group
  generalize hgr : m.toNodeGroup = gr at hcs
  have e1 : m.spawning = gr.spawning := by rw [← hgr]
  have e2 : m.purpose = gr.purpose := by rw [← hgr]
  have e3 : m.nodes = gr.nodes := by rw [← hgr]
  rw [e1] at k1
  rw [e2] at k2 k3
  cases hcs with
  | expand => cases k1
  | @block d e bn j1 j2 j3 j4 j5 =>
    cases k1
    exact ⟨d, e, j1, j2, j3, j4, rfl, j5⟩
  | gather => exact absurd rfl k3
  | single => cases k1

theorem BlockCtx.run_closed : ParClosed g ov (InRun g nodes) := by
  constructor
  · rintro k n (⟨m, hm, rfl⟩ | ⟨m, hm, hk⟩) hn ho d hd
    · rw [c.blocks.in_graph m hm] at hn
      cases hn
      rcases c.closed _ hm ho d hd with h | ⟨_, h, _⟩
      · exact .inl h
      · exact .inr h
    · rw [hm] at hn; cases hn
      rw [c.wf.external_no_params hm hk] at hd; cases hd
  · rintro k n e (⟨m, hm, rfl⟩ | ⟨m, hm, hk⟩) hn ho hc hf
    · rw [c.blocks.in_graph m hm] at hn
      cases hn
      exact .inl (c.blocks.whole _ hm hc e (.inl hf))
    · rw [hm] at hn; cases hn
      rw [hc] at hk; cases hk

theorem BlockCtx.one {k : Name} {n : Node T V} {e e' : Name} (hk : InRun g nodes k) (hn : g.get? k = some n)
    (hc : n.kind = .collect) (h : Feeds g e k) (h' : Feeds g e' k) : e = e' := by
  rcases hk with ⟨m, hm, rfl⟩ | ⟨m, hm, hk⟩
  · rw [c.blocks.in_graph m hm] at hn
    cases hn
    exact c.blocks.one_start _ hm hc e e' h h'
  · rw [hm] at hn; cases hn
    rw [hc] at hk; cases hk

/-- Outside of a block the element does not matter. -/
theorem BlockCtx.outer_closed {d e : Node T V} (hd : d ∈ nodes) (hk : d.kind = .collect) (he : e ∈ nodes)
    (hf : Feeds g e.name d.name) : ParClosed g ov (fun k => InRun g nodes k ∧ k ≠ e.name ∧ ¬ InBlock g d.name k ∧
      ¬ Reaches (DependsOn g) k d.name) := by
  have hrc := c.run_closed
  constructor
  · rintro k n ⟨h1, h2, h3, h4⟩ hn ho p hp
    have hdep : DependsOn g k p := ⟨n, hn, hp⟩
    have hmem : ∃ m ∈ nodes, m.name = k := by
      rcases h1 with h1 | ⟨m, hm, hke⟩
      · exact h1
      · rw [hm] at hn; cases hn
        rw [c.wf.external_no_params hm hke] at hp; cases hp
    obtain ⟨m, hm, rfl⟩ := hmem
    refine ⟨hrc.params _ n h1 hn ho p hp, ?_, ?_, ?_⟩
    · rintro rfl
      exact h3 (c.blocks.start_use d hd hk _ hf m hm hdep)
    · intro hb
      rcases c.blocks.inside_use d hd hk p hb m hm hdep with h | h
      · exact h3 h
      · rw [h] at h4; exact h4 (.refl _)
    · intro hr
      exact h4 (Reaches.head hdep hr)
  · rintro k n e' ⟨h1, h2, h3, h4⟩ hn ho hkn hf'
    refine ⟨hrc.feed _ n e' h1 hn ho hkn hf', ?_, ?_, ?_⟩
    · rintro rfl
      rcases h1 with ⟨m, hm, rfl⟩ | ⟨m, hm, hke⟩
      · rw [c.blocks.in_graph m hm] at hn
        cases hn
        have := c.blocks.one_end d hd hk _ hm hkn _ hf hf'
        rw [this] at h4
        exact h4 (.refl _)
      · rw [hm] at hn; cases hn
        rw [hkn] at hke; cases hke
    · intro hb
      exact hb.1 hf'.1
    · intro hr
      obtain ⟨_, x, hx, hxe⟩ := hf'
      exact h4 (Reaches.head hx ((hxe.mono (fun _ _ h => h.2)).trans hr))

theorem BlockCtx.outer {d e : Node T V} (hd : d ∈ nodes) (hk : d.kind = .collect) (he : e ∈ nodes)
    (hf : Feeds g e.name d.name) {k : Name} {v item : V} (h1 : InRun g nodes k) (h2 : k ≠ e.name)
    (h3 : ¬ InBlock g d.name k) (h4 : ¬ Reaches (DependsOn g) k d.name) :
    ParDen ops g all ov k v ↔ ParDen ops g all (ov.set e.name item) k v := by
  have hcl := c.outer_closed hd hk he hf
  constructor
  · intro h
    refine h.local hcl (fun _ h => h) _ ?_ ⟨h1, h2, h3, h4⟩
    rintro j ⟨_, hj, _⟩
    exact Dict.get?_set_ne _ _ (Ne.symm hj)
  · intro h
    refine h.local hcl (fun _ h => get?_set_none h) _ ?_ ⟨h1, h2, h3, h4⟩
    rintro j ⟨_, hj, _⟩
    exact (Dict.get?_set_ne _ _ (Ne.symm hj)).symm

end Shape

end Verif
