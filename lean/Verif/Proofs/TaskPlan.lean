import Verif.Model.Grouping
import Verif.Proofs.Sched1

/-! What `createTaskPlan` produces. -/
namespace Verif
variable {T V : Type}

theorem mapM_some {α β : Type} {f : α → Option β} {l : List α} {r : List β} (h : l.mapM f = some r) :
    (∀ b ∈ r, ∃ a ∈ l, f a = some b) ∧ (∀ a ∈ l, ∃ b ∈ r, f a = some b) ∧
    ∀ {γ : Type} (p : α → γ) (q : β → γ), (∀ a b, f a = some b → q b = p a) → r.map q = l.map p := by
  induction l generalizing r with
  | nil =>
    rw [List.mapM_nil] at h
    cases h
    simp
  | cons a l ih =>
    rw [List.mapM_cons] at h
    cases ha : f a with
    | none => rw [ha] at h; cases h
    | some b =>
      rw [ha] at h
      cases hl : l.mapM f with
      | none => rw [hl] at h; cases h
      | some bs =>
        rw [hl] at h
        cases h
        obtain ⟨h1, h2, h3⟩ := ih hl
        refine ⟨?_, ?_, ?_⟩
        · intro b' hb'
          rcases List.mem_cons.1 hb' with rfl | hb'
          · exact ⟨a, by simp, ha⟩
          · obtain ⟨a', x, y⟩ := h1 b' hb'
            exact ⟨a', by simp [x], y⟩
        · intro a' ha'
          rcases List.mem_cons.1 ha' with rfl | ha'
          · exact ⟨b, by simp, ha⟩
          · obtain ⟨b', x, y⟩ := h2 a' ha'
            exact ⟨b', by simp [x], y⟩
        · intro γ p q hpq
          simp only [List.map_cons, hpq a b ha]
          rw [h3 p q hpq]

theorem mem_setAdd_plan {l : List Name} {x y : Name} : y ∈ setAdd l x ↔ y ∈ l ∨ y = x := by
  unfold setAdd
  split
  · rename_i h
    rw [List.contains_iff_mem] at h
    constructor
    · exact .inl
    · rintro (h' | rfl)
      · exact h'
      · exact h
  · simp

theorem planDep_fold {overrides : Dict Name V} {n2t : Dict Name Name} {inGroup : List Name} {n : Node T V}
    (ds : List Name) (deps : List Name) :
    (∀ r, ds.foldlM (planDep overrides n2t inGroup n) deps = some r → ∀ b, b ∈ r ↔ b ∈ deps ∨
      ∃ d ∈ ds, overrides.get? d = none ∧ d ∉ inGroup ∧ n2t.get? d = some b) ∧
    ((∃ r, ds.foldlM (planDep overrides n2t inGroup n) deps = some r) ↔
      ∀ d ∈ ds, overrides.get? d = none → d ∉ inGroup → n2t.get? d = none → n.requires d = false) := by
  induction ds generalizing deps with
  | nil =>
    rw [List.foldlM_nil]
    refine ⟨?_, by simp⟩
    intro r hr b
    cases hr
    simp
  | cons d ds ih =>
    rw [List.foldlM_cons]
    have hcond : (!overrides.has d && !inGroup.contains d) = true ↔ overrides.get? d = none ∧ d ∉ inGroup := by
      rw [Bool.and_eq_true, Bool.not_eq_true', Dict.has_eq_false_iff, Bool.not_eq_true', ← Bool.not_eq_true,
        List.contains_iff_mem]
    by_cases hc : (!overrides.has d && !inGroup.contains d) = true
    · have hc' := hcond.1 hc
      cases hn : n2t.get? d with
      | none =>
        by_cases hr : n.requires d = true
        · have hp : planDep overrides n2t inGroup n deps d = none := by
            unfold planDep
            rw [if_pos hc, hn]
            simp [hr]
          rw [hp]
          refine ⟨(fun r h => nomatch h), ?_⟩
          constructor
          · rintro ⟨r, h⟩; cases h
          · intro h
            have := h d (by simp) hc'.1 hc'.2 hn
            rw [hr] at this; cases this
        · have hp : planDep overrides n2t inGroup n deps d = some deps := by
            unfold planDep
            rw [if_pos hc, hn]
            simp [hr]
          rw [hp]
          obtain ⟨h1, h2⟩ := ih deps
          refine ⟨?_, ?_⟩
          · intro r h b
            rw [h1 r h b]
            constructor
            · rintro (x | ⟨d', x, y⟩)
              · exact .inl x
              · exact .inr ⟨d', by simp [x], y⟩
            · rintro (x | ⟨d', x, y, z, w⟩)
              · exact .inl x
              · rcases List.mem_cons.1 x with rfl | x
                · rw [hn] at w; cases w
                · exact .inr ⟨d', x, y, z, w⟩
          · refine h2.trans ?_
            constructor
            · intro h d' hd'
              rcases List.mem_cons.1 hd' with rfl | hd'
              · intro _ _ _; simpa using hr
              · exact h d' hd'
            · intro h d' hd'; exact h d' (by simp [hd'])
      | some b0 =>
        have hp : planDep overrides n2t inGroup n deps d = some (setAdd deps b0) := by
          unfold planDep
          rw [if_pos hc, hn]
        rw [hp]
        obtain ⟨h1, h2⟩ := ih (setAdd deps b0)
        refine ⟨?_, ?_⟩
        · intro r h b
          rw [h1 r h b, mem_setAdd_plan]
          constructor
          · rintro ((x | rfl) | ⟨d', x, y⟩)
            · exact .inl x
            · exact .inr ⟨d, by simp, hc'.1, hc'.2, hn⟩
            · exact .inr ⟨d', by simp [x], y⟩
          · rintro (x | ⟨d', x, y, z, w⟩)
            · exact .inl (.inl x)
            · rcases List.mem_cons.1 x with rfl | x
              · rw [hn] at w; cases w; exact .inl (.inr rfl)
              · exact .inr ⟨d', x, y, z, w⟩
        · refine h2.trans ?_
          constructor
          · intro h d' hd'
            rcases List.mem_cons.1 hd' with rfl | hd'
            · intro _ _ hx; rw [hn] at hx; cases hx
            · exact h d' hd'
          · intro h d' hd'; exact h d' (by simp [hd'])
    · have hp : planDep overrides n2t inGroup n deps d = some deps := by
        unfold planDep
        rw [if_neg hc]
      rw [hp]
      have hc' : ¬ (overrides.get? d = none ∧ d ∉ inGroup) := fun h => hc (hcond.2 h)
      obtain ⟨h1, h2⟩ := ih deps
      refine ⟨?_, ?_⟩
      · intro r h b
        rw [h1 r h b]
        constructor
        · rintro (x | ⟨d', x, y⟩)
          · exact .inl x
          · exact .inr ⟨d', by simp [x], y⟩
        · rintro (x | ⟨d', x, y, z, w⟩)
          · exact .inl x
          · rcases List.mem_cons.1 x with rfl | x
            · exact absurd ⟨y, z⟩ hc'
            · exact .inr ⟨d', x, y, z, w⟩
      · refine h2.trans ?_
        constructor
        · intro h d' hd'
          rcases List.mem_cons.1 hd' with rfl | hd'
          · intro a b _; exact absurd ⟨a, b⟩ hc'
          · exact h d' hd'
        · intro h d' hd'; exact h d' (by simp [hd'])

theorem planNode_fold {overrides : Dict Name V} {n2t : Dict Name Name} {inGroup : List Name}
    (ns : List (Node T V)) (deps : List Name) :
    (∀ r, ns.foldlM (planNode overrides n2t inGroup) deps = some r → ∀ b, b ∈ r ↔ b ∈ deps ∨
      ∃ n ∈ ns, overrides.get? n.name = none ∧ ∃ d ∈ n.dependencies, overrides.get? d = none ∧ d ∉ inGroup ∧
        n2t.get? d = some b) ∧
    ((∃ r, ns.foldlM (planNode overrides n2t inGroup) deps = some r) ↔
      ∀ n ∈ ns, overrides.get? n.name = none → ∀ d ∈ n.dependencies, overrides.get? d = none → d ∉ inGroup →
        n2t.get? d = none → n.requires d = false) := by
  induction ns generalizing deps with
  | nil =>
    rw [List.foldlM_nil]
    refine ⟨?_, by simp⟩
    intro r hr b
    cases hr
    simp
  | cons n ns ih =>
    rw [List.foldlM_cons]
    by_cases ho : overrides.has n.name = true
    · have hp : planNode overrides n2t inGroup deps n = some deps := by
        unfold planNode; rw [if_pos ho]
      rw [hp]
      have ho' : ¬ overrides.get? n.name = none := by
        rw [← Dict.has_eq_false_iff, ho]; simp
      obtain ⟨h1, h2⟩ := ih deps
      refine ⟨?_, ?_⟩
      · intro r h b
        rw [h1 r h b]
        constructor
        · rintro (x | ⟨d', x, y⟩)
          · exact .inl x
          · exact .inr ⟨d', by simp [x], y⟩
        · rintro (x | ⟨d', x, y, z⟩)
          · exact .inl x
          · rcases List.mem_cons.1 x with rfl | x
            · exact absurd y ho'
            · exact .inr ⟨d', x, y, z⟩
      · refine h2.trans ?_
        constructor
        · intro h d' hd'
          rcases List.mem_cons.1 hd' with rfl | hd'
          · intro a; exact absurd a ho'
          · exact h d' hd'
        · intro h d' hd'; exact h d' (by simp [hd'])
    · have hp : planNode overrides n2t inGroup deps n =
          n.dependencies.foldlM (planDep overrides n2t inGroup n) deps := by
        unfold planNode; rw [if_neg ho]
      have ho' : overrides.get? n.name = none := by
        rw [← Dict.has_eq_false_iff]; simpa using ho
      obtain ⟨q1, q2⟩ := planDep_fold (overrides := overrides) (n2t := n2t) (inGroup := inGroup) (n := n)
        n.dependencies deps
      rw [hp]
      cases hd : n.dependencies.foldlM (planDep overrides n2t inGroup n) deps with
      | none =>
        refine ⟨(fun r h => nomatch h), ?_⟩
        constructor
        · rintro ⟨r, h⟩; cases h
        · intro h
          have := q2.2 (fun d hd => h n (by simp) ho' d hd)
          rw [hd] at this
          obtain ⟨r, hr⟩ := this
          cases hr
      | some deps1 =>
        have q1' := q1 deps1 hd
        obtain ⟨h1, h2⟩ := ih deps1
        refine ⟨?_, ?_⟩
        · intro r h b
          rw [h1 r h b, q1' b]
          constructor
          · rintro ((x | ⟨d, x, y⟩) | ⟨n', x, y⟩)
            · exact .inl x
            · exact .inr ⟨n, by simp, ho', d, x, y⟩
            · exact .inr ⟨n', by simp [x], y⟩
          · rintro (x | ⟨n', x, y, z⟩)
            · exact .inl (.inl x)
            · rcases List.mem_cons.1 x with rfl | x
              · exact .inl (.inr z)
              · exact .inr ⟨n', x, y, z⟩
        · refine h2.trans ?_
          constructor
          · intro h n' hn'
            rcases List.mem_cons.1 hn' with rfl | hn'
            · intro _; exact q2.1 ⟨deps1, hd⟩
            · exact h n' hn'
          · intro h d' hd'; exact h d' (by simp [hd'])

theorem n2t_inner {overrides : Dict Name V} (b : Name) (ns : List (Node T V)) (m : Dict Name Name) (d : Name) :
    (ns.foldl (fun (m : Dict Name Name) n => if overrides.has n.name then m else m.set n.name b) m).get? d =
      if overrides.get? d = none ∧ d ∈ ns.map (·.name) then some b else m.get? d := by
  induction ns generalizing m with
  | nil => simp
  | cons n ns ih =>
    simp only [List.foldl_cons]
    rw [ih]
    by_cases ho : overrides.has n.name = true
    · rw [if_pos ho]
      have ho' : ¬ overrides.get? n.name = none := by
        rw [← Dict.has_eq_false_iff, ho]; simp
      by_cases hd : d = n.name
      · subst hd
        simp [ho']
      · simp [hd]
    · rw [if_neg ho]
      have ho' : overrides.get? n.name = none := by
        rw [← Dict.has_eq_false_iff]; simpa using ho
      by_cases hd : d = n.name
      · subst hd
        simp [ho', Dict.get?_set]
      · simp [hd, Dict.get?_set, Ne.symm hd]

theorem nodeToTask_spec (overrides : Dict Name V) (groups : List (NodeGroup T V)) :
    (∀ d b, (nodeToTask overrides groups).get? d = some b → overrides.get? d = none ∧
      ∃ gr ∈ groups, gr.baseId = b ∧ ∃ n ∈ gr.nodes, n.name = d) ∧
    (∀ gr ∈ groups, ∀ n ∈ gr.nodes, overrides.get? n.name = none →
      ∃ b, (nodeToTask overrides groups).get? n.name = some b) := by
  unfold nodeToTask
  have key : ∀ (m : Dict Name Name),
      (∀ d b, (groups.foldl (fun m gr => gr.nodes.foldl (fun (m : Dict Name Name) n =>
        if overrides.has n.name then m else m.set n.name gr.baseId) m) m).get? d = some b →
        m.get? d = some b ∨ (overrides.get? d = none ∧ ∃ gr ∈ groups, gr.baseId = b ∧ ∃ n ∈ gr.nodes, n.name = d)) ∧
      (∀ d b, m.get? d = some b → ∃ b', (groups.foldl (fun m gr => gr.nodes.foldl (fun (m : Dict Name Name) n =>
        if overrides.has n.name then m else m.set n.name gr.baseId) m) m).get? d = some b') ∧
      (∀ gr ∈ groups, ∀ n ∈ gr.nodes, overrides.get? n.name = none →
        ∃ b, (groups.foldl (fun m gr => gr.nodes.foldl (fun (m : Dict Name Name) n =>
        if overrides.has n.name then m else m.set n.name gr.baseId) m) m).get? n.name = some b) := by
    induction groups with
    | nil => intro m; exact ⟨fun d b h => .inl h, fun d b h => ⟨b, h⟩, fun gr h => by cases h⟩
    | cons gr groups ih =>
      intro m
      simp only [List.foldl_cons]
      obtain ⟨h1, h2, h3⟩ := ih (gr.nodes.foldl (fun (m : Dict Name Name) n =>
        if overrides.has n.name then m else m.set n.name gr.baseId) m)
      refine ⟨?_, ?_, ?_⟩
      · intro d b h
        rcases h1 d b h with h' | ⟨ho, gr', x, y⟩
        · rw [n2t_inner] at h'
          split at h'
          · rename_i hc
            cases h'
            obtain ⟨n, hn, hnd⟩ := List.mem_map.1 hc.2
            exact .inr ⟨hc.1, gr, by simp, rfl, n, hn, hnd⟩
          · exact .inl h'
        · exact .inr ⟨ho, gr', by simp [x], y⟩
      · intro d b h
        have : ∃ b', (gr.nodes.foldl (fun (m : Dict Name Name) n =>
            if overrides.has n.name then m else m.set n.name gr.baseId) m).get? d = some b' := by
          rw [n2t_inner]
          split
          · exact ⟨_, rfl⟩
          · exact ⟨b, h⟩
        obtain ⟨b', hb'⟩ := this
        exact h2 d b' hb'
      · intro gr' hgr' n hn ho
        rcases List.mem_cons.1 hgr' with rfl | hgr'
        · refine h2 n.name gr'.baseId ?_
          rw [n2t_inner, if_pos ⟨ho, List.mem_map.2 ⟨n, hn, rfl⟩⟩]
        · exact h3 gr' hgr' n hn ho
  obtain ⟨h1, _, h3⟩ := key []
  refine ⟨?_, h3⟩
  intro d b h
  rcases h1 d b h with h' | h'
  · cases h'
  · exact h'

theorem ov_fold (overrides : Dict Name V) (ns : List (Node T V)) (o : Dict Name V) (ho : o.keys.Nodup) :
    (ns.foldl (taskOverride overrides) o).keys.Nodup ∧
    ∀ k, (ns.foldl (taskOverride overrides) o).get? k = (if k ∈ ns.map (·.name) then overrides.get? k else none).or (o.get? k) := by
  induction ns generalizing o with
  | nil => exact ⟨ho, fun k => by simp⟩
  | cons n ns ih =>
    simp only [List.foldl_cons]
    cases hn : overrides.get? n.name with
    | none =>
      have he : taskOverride overrides o n = o := by unfold taskOverride; rw [hn]
      rw [he]
      obtain ⟨h1, h2⟩ := ih o ho
      refine ⟨h1, fun k => ?_⟩
      rw [h2]
      by_cases hk : k = n.name
      · subst hk; simp [hn]
      · simp [hk]
    | some v =>
      have he : taskOverride overrides o n = o.set n.name v := by unfold taskOverride; rw [hn]
      rw [he]
      obtain ⟨h1, h2⟩ := ih (o.set n.name v) (Dict.keys_set_nodup ho _ _)
      refine ⟨h1, fun k => ?_⟩
      rw [h2]
      by_cases hk : k = n.name
      · subst hk
        simp only [List.map_cons, List.mem_cons, true_or, if_true, Dict.get?_set, hn, Option.some_or]
        split <;> rfl
      · simp [hk, Dict.get?_set, Ne.symm hk]

/-- The task plan, task by task. -/
structure PlanSpec (groups : List (NodeGroup T V)) (requested : List Name) (overrides : Dict Name V)
    (s : TaskSpec T V) : Prop where
  group : s.toNodeGroup ∈ groups
  outputs : ∀ k, k ∈ s.outputs ↔ ∃ n ∈ s.nodes, n.name = k ∧ overrides.get? k = none ∧
    (k ∈ requested ∨ ∃ m ∈ n.dependedOnBy, overrides.get? m = none ∧ m ∉ s.nodes.map (·.name))
  ov_nodup : s.overrides.keys.Nodup
  ov : ∀ k, s.overrides.get? k = if k ∈ s.nodes.map (·.name) then overrides.get? k else none
  deps : ∀ b, b ∈ s.baseDeps ↔ ∃ n ∈ s.nodes, overrides.get? n.name = none ∧ ∃ d ∈ n.dependencies,
    overrides.get? d = none ∧ d ∉ s.nodes.map (·.name) ∧ (nodeToTask overrides groups).get? d = some b
  missing : ∀ n ∈ s.nodes, overrides.get? n.name = none → ∀ d ∈ n.dependencies, overrides.get? d = none →
    d ∉ s.nodes.map (·.name) → (nodeToTask overrides groups).get? d = none → n.requires d = false

theorem createTaskPlan_spec {groups : List (NodeGroup T V)} {requested : List Name} {overrides : Dict Name V}
    {specs : List (TaskSpec T V)} (h : createTaskPlan groups requested overrides = some specs) :
    specs.map (·.toNodeGroup) = groups ∧ ∀ s ∈ specs, PlanSpec groups requested overrides s := by
  unfold createTaskPlan at h
  obtain ⟨h1, h2, h3⟩ := mapM_some h
  constructor
  · rw [h3 id (fun s : TaskSpec T V => s.toNodeGroup)]
    · simp
    · intro a b hab
      rw [Option.map_eq_some_iff] at hab
      obtain ⟨deps, _, rfl⟩ := hab
      rfl
  · intro s hs
    obtain ⟨gr, hgr, hs2⟩ := h1 s hs
    rw [Option.map_eq_some_iff] at hs2
    obtain ⟨deps, hd, rfl⟩ := hs2
    obtain ⟨q1, q2⟩ := planNode_fold (overrides := overrides) (n2t := nodeToTask overrides groups)
      (inGroup := gr.nodes.map (·.name)) gr.nodes []
    have hov := ov_fold overrides gr.nodes [] (by simp [Dict.keys])
    exact {
      group := hgr
      outputs := by
        intro k
        simp only [taskOfGroup, List.mem_map, List.mem_filter, Bool.and_eq_true, Bool.not_eq_true',
          Dict.has_eq_false_iff, isTaskOutput, Bool.or_eq_true, List.contains_iff_mem, List.any_eq_true]
        constructor
        · rintro ⟨n, ⟨hn, ho, hr⟩, rfl⟩
          refine ⟨n, hn, rfl, ho, ?_⟩
          rcases hr with hr | ⟨m, a, b, c⟩
          · exact .inl hr
          · refine .inr ⟨m, a, b, ?_⟩
            rw [← Bool.not_eq_true, List.contains_iff_mem] at c
            simpa using c
        · rintro ⟨n, hn, rfl, ho, hr⟩
          refine ⟨n, ⟨hn, ho, ?_⟩, rfl⟩
          rcases hr with hr | ⟨m, a, b, c⟩
          · exact .inl hr
          · refine .inr ⟨m, a, b, ?_⟩
            rw [← Bool.not_eq_true, List.contains_iff_mem]
            simpa using c
      ov_nodup := hov.1
      ov := by
        intro k
        have := hov.2 k
        have h0 : Dict.get? ([] : Dict Name V) k = none := rfl
        rw [h0, Option.or_none] at this
        exact this
      deps := by
        intro b
        rw [q1 deps hd b]
        simp [taskOfGroup]
      missing := by
        intro n hn ho d hd' hod hng hnn
        exact q2.1 ⟨deps, hd⟩ n hn ho d hd' hod hng hnn }

/-- The plan exists unless a required dependency has no task. -/
theorem createTaskPlan_some {groups : List (NodeGroup T V)} {requested : List Name} {overrides : Dict Name V}
    (h : ∀ gr ∈ groups, ∀ n ∈ gr.nodes, overrides.get? n.name = none → ∀ d ∈ n.dependencies,
      overrides.get? d = none → d ∉ gr.nodes.map (·.name) → (∀ gr' ∈ groups, ∀ n' ∈ gr'.nodes, n'.name ≠ d) →
      n.requires d = false) :
    ∃ specs, createTaskPlan groups requested overrides = some specs := by
  have hn2t : ∀ d, overrides.get? d = none → (nodeToTask overrides groups).get? d = none →
      ∀ gr' ∈ groups, ∀ n' ∈ gr'.nodes, n'.name ≠ d := by
    rintro d ho hd gr' h1 n' h2 rfl
    obtain ⟨b, hb⟩ := (nodeToTask_spec overrides groups).2 gr' h1 n' h2 ho
    rw [hd] at hb; cases hb
  unfold createTaskPlan
  have key : ∀ (l : List (NodeGroup T V)), (∀ gr ∈ l, gr ∈ groups) → ∃ r, l.mapM (fun gr =>
      (gr.nodes.foldlM (planNode overrides (nodeToTask overrides groups) (gr.nodes.map (·.name))) []).map fun deps =>
      { taskOfGroup requested overrides gr with baseDeps := deps }) = some r := by
    intro l
    induction l with
    | nil => intro _; exact ⟨[], rfl⟩
    | cons gr l ih =>
      intro hl
      obtain ⟨r, hr⟩ := ih (fun gr' h' => hl gr' (by simp [h']))
      obtain ⟨_, q2⟩ := planNode_fold (overrides := overrides) (n2t := nodeToTask overrides groups)
        (inGroup := gr.nodes.map (·.name)) gr.nodes []
      obtain ⟨deps, hd⟩ := q2.2 (fun n hn ho d hd hod hng hnn =>
        h gr (hl gr (by simp)) n hn ho d hd hod hng (hn2t d hod hnn))
      rw [List.mapM_cons, hd, hr]
      exact ⟨_, rfl⟩
  exact key groups (fun _ h => h)

end Verif
