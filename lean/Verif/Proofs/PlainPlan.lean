import Verif.Proofs.TaskPlan
import Verif.Proofs.Sched11
import Verif.Spec.Groups

/-! Plans of groupings without expanders and collectors. -/
namespace Verif
variable {T V : Type}

theorem nodup_map_inj {α β : Type} {f : α → β} {l : List α} (hn : (l.map f).Nodup) {a b : α} (ha : a ∈ l) (hb : b ∈ l)
    (he : f a = f b) : a = b := by
  induction l with
  | nil => cases ha
  | cons x l ih =>
    simp only [List.map_cons, List.nodup_cons] at hn
    rcases List.mem_cons.1 ha with ha1 | ha1 <;> rcases List.mem_cons.1 hb with hb1 | hb1
    · rw [ha1, hb1]
    · exact (hn.1 (List.mem_map.2 ⟨b, hb1, by rw [← he, ha1]⟩)).elim
    · exact (hn.1 (List.mem_map.2 ⟨a, ha1, by rw [he, hb1]⟩)).elim
    · exact ih hn.2 ha1 hb1

theorem Partition.same_group {nodes : List (Node T V)} {groups : List (NodeGroup T V)} (h : Partition nodes groups)
    {gr gr' : NodeGroup T V} (hg : gr ∈ groups) (hg' : gr' ∈ groups) {n n' : Node T V} (hn : n ∈ gr.nodes)
    (hn' : n' ∈ gr'.nodes) (he : n.name = n'.name) : gr = gr' := by
  have ho := h.once
  clear h
  induction groups with
  | nil => cases hg
  | cons a l ih =>
    rw [List.flatMap_cons, List.nodup_append] at ho
    obtain ⟨h1, h2, h3⟩ := ho
    rcases List.mem_cons.1 hg with rfl | hg1 <;> rcases List.mem_cons.1 hg' with rfl | hg1'
    · rfl
    · exfalso
      exact h3 n.name (List.mem_map.2 ⟨n, hn, rfl⟩) n'.name
        (List.mem_flatMap.2 ⟨gr', hg1', List.mem_map.2 ⟨n', hn', rfl⟩⟩) he
    · exfalso
      exact h3 n'.name (List.mem_map.2 ⟨n', hn', rfl⟩) n.name
        (List.mem_flatMap.2 ⟨gr, hg1, List.mem_map.2 ⟨n, hn, rfl⟩⟩) he.symm
    · exact ih hg1 hg1' h2

theorem Partition.n2t {nodes : List (Node T V)} {groups : List (NodeGroup T V)} (h : Partition nodes groups)
    {overrides : Dict Name V} {d b : Name} :
    (nodeToTask overrides groups).get? d = some b ↔ overrides.get? d = none ∧
      ∃ gr ∈ groups, gr.baseId = b ∧ ∃ n ∈ gr.nodes, n.name = d := by
  obtain ⟨h1, h2⟩ := nodeToTask_spec overrides groups
  constructor
  · exact h1 d b
  · rintro ⟨ho, gr, hg, rfl, n, hn, rfl⟩
    obtain ⟨b', hb'⟩ := h2 gr hg n hn ho
    obtain ⟨_, gr', hg', rfl, n', hn', he⟩ := h1 _ _ hb'
    have := h.same_group hg hg' hn hn' he.symm
    subst this
    exact hb'

variable {nodes : List (Node T V)} {groups : List (NodeGroup T V)} {requested : List Name} {overrides : Dict Name V}
  {specs : List (TaskSpec T V)}

theorem plan_ids (h : createTaskPlan groups requested overrides = some specs) :
    specs.map (·.baseId) = groups.map (·.baseId) := by
  have h' := (createTaskPlan_spec h).1
  calc specs.map (·.baseId) = (specs.map (·.toNodeGroup)).map (·.baseId) := by rw [List.map_map]; rfl
    _ = groups.map (·.baseId) := by rw [h']

theorem plan_of_group (h : createTaskPlan groups requested overrides = some specs) {gr : NodeGroup T V}
    (hg : gr ∈ groups) : ∃ s ∈ specs, s.toNodeGroup = gr := by
  have h' := (createTaskPlan_spec h).1
  rw [← h'] at hg
  obtain ⟨s, hs, rfl⟩ := List.mem_map.1 hg
  exact ⟨s, hs, rfl⟩

/-- Plans of plain groupings run to the end. -/
theorem PlainGroups.live (hp : PlainGroups nodes groups) (hne : groups ≠ [])
    (h : createTaskPlan groups requested overrides = some specs) : PlanLive specs := by
  obtain ⟨h1, h2⟩ := createTaskPlan_spec h
  have hplain : ∀ s ∈ specs, s.spawning = none ∧ s.purpose ≠ .expand ∧ s.purpose ≠ .gather := by
    intro s hs
    exact hp.plain _ (h2 s hs).group
  have hnomem : ∀ s ∈ specs, ∀ e, ¬ s.MemberOf e := by
    intro s hs e hm
    rw [TaskSpec.MemberOf, (hplain s hs).1] at hm
    cases hm.1
  have hdeps : ∀ s ∈ specs, ∀ d ∈ s.baseDeps, ∃ p ∈ specs, p.baseId = d := by
    intro s hs d hd
    obtain ⟨n, hn, _, d', _, _, _, hb⟩ := ((h2 s hs).deps d).1 hd
    obtain ⟨_, gr, hg, rfl, _⟩ := (hp.toPartition.n2t).1 hb
    obtain ⟨p, hps, rfl⟩ := plan_of_group h hg
    exact ⟨p, hps, rfl⟩
  refine { ids_nodup := ?_, deps_in := hdeps, expand_static := ?_, spawned := ?_, member_use := ?_, inst_inj := ?_,
           inst_fresh := ?_, nonempty := ?_, rank := ?_, realizable := ?_ }
  · rw [plan_ids h]; exact hp.ids_nodup
  · intro s hs _; exact (hplain s hs).1
  · intro s hs e he; rw [(hplain s hs).1] at he; cases he
  · intro s hs m hm e hme; exact absurd hme (hnomem m hm e)
  · intro m hm m' _ e _ _ _ hme; exact absurd hme (hnomem m hm e)
  · intro m hm s _ e _ hme; exact absurd hme (hnomem m hm e)
  · intro he; subst he; exact hne h1.symm
  · obtain ⟨rank, hr⟩ := hp.order
    refine ⟨rank, ?_, ?_⟩
    · intro s hs d hd
      obtain ⟨n, hn, _, d', hd', _, hng, hb⟩ := ((h2 s hs).deps d).1 hd
      obtain ⟨_, gr, hg, rfl, n', hn', rfl⟩ := (hp.toPartition.n2t).1 hb
      refine hr _ (h2 s hs).group gr hg ?_ n hn n' hn' hd'
      intro heq
      have : s.toNodeGroup = gr := by
        have hi := hp.ids_nodup
        exact nodup_map_inj hi (h2 s hs).group hg heq
      subst this
      exact hng (List.mem_map.2 ⟨n', hn', rfl⟩)
    · intro s hs e he; rw [(hplain s hs).1] at he; cases he
  · intro s hs _ hb
    obtain ⟨d, hd⟩ := List.exists_mem_of_ne_nil _ hb
    obtain ⟨p, hps, rfl⟩ := hdeps s hs d hd
    exact ⟨p, hps, hd, (hplain p hps).2.1⟩

theorem Partition.keys (hp : Partition nodes groups)
    (h : createTaskPlan groups requested overrides = some specs)
    (hgs : ∀ gr ∈ groups, gr.purpose = .gather → gr.spawning ≠ none)
    (hi : HasRepeated specs → (∀ gr ∈ groups, ColonFree gr.baseId) ∧ (∀ n ∈ nodes, ColonFree n.name) ∧
      ∀ n ∈ nodes, ∀ d ∈ n.dependencies, ColonFree d) : KeysOk specs := by
  obtain ⟨h1, h2⟩ := createTaskPlan_spec h
  refine { node_disjoint := ?_, outputs_in := ?_, overrides_in := ?_, overrides_nodup := ?_, gather_spawned := ?_,
           ids_plain := ?_, names_plain := ?_, deps_plain := ?_ }
  · intro s hs s' hs' n hn n' hn' he
    have := hp.same_group (h2 s hs).group (h2 s' hs').group hn hn' he
    exact congrArg (·.baseId) this
  · intro s hs k hk
    obtain ⟨n, hn, he, _⟩ := ((h2 s hs).outputs k).1 hk
    exact ⟨n, hn, he⟩
  · intro s hs k v hk
    rw [(h2 s hs).ov] at hk
    split at hk
    · rename_i hm
      obtain ⟨n, hn, he⟩ := List.mem_map.1 hm
      exact ⟨n, hn, he⟩
    · cases hk
  · intro s hs; exact (h2 s hs).ov_nodup
  · intro s hs hg
    exact hgs _ (h2 s hs).group hg
  · intro hr s hs; exact (hi hr).1 _ (h2 s hs).group
  · intro hr s hs n hn'
    exact (hi hr).2.1 n ((hp.covers n).1 ⟨_, (h2 s hs).group, hn'⟩)
  · intro hr s hs n hn'
    exact (hi hr).2.2 n ((hp.covers n).1 ⟨_, (h2 s hs).group, hn'⟩)

theorem PlainGroups.not_repeated (hp : PlainGroups nodes groups)
    (h : createTaskPlan groups requested overrides = some specs) : ¬ HasRepeated specs := by
  rintro ⟨m, hm, e, he⟩
  have := (hp.plain _ ((createTaskPlan_spec h).2 m hm).group).1
  rw [he.1] at this
  cases this

theorem PlainGroups.keys (hp : PlainGroups nodes groups)
    (h : createTaskPlan groups requested overrides = some specs)
    : KeysOk specs :=
  hp.toPartition.keys h (fun gr hg h => absurd h (hp.plain gr hg).2.2) (fun hr => absurd hr (hp.not_repeated h))

end Verif
