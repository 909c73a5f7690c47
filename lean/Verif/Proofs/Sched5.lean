import Verif.Proofs.Sched4

/-! The completion of a task realizes the tasks that wait for it. -/
namespace Verif
variable {T V : Type}
variable {ops : TaskOps T V} {g : Graph T V} {specs : List (TaskSpec T V)}

/-- The test of state.py:382-388. -/
def depGuard (s : Sched T V) (c : TaskSpec T V) : Bool :=
  (c.spawning.isNone || c.purpose == .expand) && !s.pool.has c.baseId

theorem depFold (cs : List (TaskSpec T V)) (hn : (cs.map (·.baseId)).Nodup) (s : Sched T V) :
    cs.foldl (fun (s : Sched T V) c =>
      if (c.spawning.isNone || c.purpose == .expand) && !s.pool.has c.baseId then
        s.register (mkTask c none none []) else s) s =
    ((cs.filter (depGuard s)).map (fun c => mkTask c none none [])).foldl Sched.register s := by
  induction cs generalizing s with
  | nil => rfl
  | cons c cs ih =>
    simp only [List.map_cons, List.nodup_cons] at hn
    simp only [List.foldl_cons]
    by_cases hg : depGuard s c = true
    · have hg' := hg
      unfold depGuard at hg'
      rw [if_pos hg', ih hn.2, List.filter_cons_of_pos hg]
      simp only [List.map_cons, List.foldl_cons]
      congr 2
      apply List.filter_congr
      intro c' hc'
      unfold depGuard
      congr 2
      unfold Sched.register Dict.has
      simp only [Dict.get?_set]
      rw [if_neg]
      intro he
      exact hn.1 (List.mem_map.2 ⟨c', hc', he.symm⟩)
    · have hg' := hg
      unfold depGuard at hg'
      rw [if_neg hg', ih hn.2, List.filter_cons_of_neg hg]

/-- The tasks realized when `id` completes, for a task that is not an expander. -/
def dependents (s : Sched T V) (id : Name) : List (Task T V) :=
  ((s.specs.filter (fun t => t.baseDeps.contains id)).filter (depGuard s)).map (fun c => mkTask c none none [])

theorem realizeDependents_eq (s : Sched T V) (id : Name) (hn : (s.specs.map (·.baseId)).Nodup) :
    realizeDependents s id = (dependents s id).foldl Sched.register s := by
  unfold realizeDependents dependents
  exact depFold _ (hn.sublist (List.filter_sublist.map _)) s

/-- The copies of repeated tasks of an expansion. -/
def instTasks (specs : List (TaskSpec T V)) (e x : Name) (items : List V) : List (Task T V) :=
  items.zipIdx.flatMap (fun p => (memberSpecs specs e).map (instTask specs e x p.2 p.1))

/-- The collectors of an expansion. -/
def collTasks (specs : List (TaskSpec T V)) (e : Name) (items : List V) : List (Task T V) :=
  (specs.filter (fun t => t.purpose == .gather && t.spawning == some e)).map (collTask specs e items)

theorem named_names (items : List V) (f : Name → Dict Name Name) :
    (items.zipIdx.map (fun p => (toString p.2, p.1))).map (fun p => f p.1) = (groupNames items).map f := by
  unfold groupNames
  rw [List.map_map, List.map_map]
  have : List.range items.length = items.zipIdx.map Prod.snd := by
    rw [List.zipIdx_map_snd, List.range_eq_range']
  rw [this, List.map_map]
  rfl

theorem register_fold_specs (ts : List (Task T V)) (s : Sched T V) : (ts.foldl Sched.register s).specs = s.specs := by
  induction ts generalizing s with
  | nil => rfl
  | cons t ts ih => exact ih _

theorem realizeGroup_eq (s : Sched T V) (e x : Name) (items : List V) (hn : (s.specs.map (·.baseId)).Nodup) :
    realizeGroup s e x items = (instTasks s.specs e x items ++ collTasks s.specs e items).foldl Sched.register s := by
  have hb : ∀ s' : Sched T V, s'.specs = s.specs → s'.baseTasks = s.specs := by
    intro s' h'
    unfold Sched.baseTasks
    rw [h']
    exact baseTasks_eq hn
  unfold realizeGroup
  simp only
  rw [hb s rfl, hb _ (register_fold_specs _ _), List.foldl_append, named_names]
  have hi : (items.zipIdx.map (fun p => (toString p.2, p.1))).flatMap
      (fun p => groupTasks (s.specs.filter
        (fun t => t.spawning == some e && t.purpose != .expand && t.purpose != .gather)) e p.1 x p.2) =
      instTasks s.specs e x items := by
    unfold instTasks
    rw [List.flatMap_map]
    rfl
  rw [hi]
  rfl

theorem mem_instTasks {e x : Name} {items : List V} {t : Task T V} :
    t ∈ instTasks specs e x items ↔ ∃ m ∈ specs, m.MemberOf e ∧ ∃ i item, items[i]? = some item ∧
      t = instTask specs e x i item m := by
  unfold instTasks
  rw [List.mem_flatMap]
  constructor
  · rintro ⟨p, hp, ht⟩
    obtain ⟨m, hm, rfl⟩ := List.mem_map.1 ht
    obtain ⟨h1, h2⟩ := mem_memberSpecs.1 hm
    exact ⟨m, h1, h2, p.2, p.1, List.mem_zipIdx_iff_getElem?.1 hp, rfl⟩
  · rintro ⟨m, h1, h2, i, item, h3, rfl⟩
    exact ⟨(item, i), List.mem_zipIdx_iff_getElem?.2 h3, List.mem_map.2 ⟨m, mem_memberSpecs.2 ⟨h1, h2⟩, rfl⟩⟩

theorem mem_collTasks {e : Name} {items : List V} {t : Task T V} :
    t ∈ collTasks specs e items ↔ ∃ c ∈ specs, c.CollectorOf e ∧ t = collTask specs e items c := by
  unfold collTasks
  rw [List.mem_map]
  constructor
  · rintro ⟨c, hc, rfl⟩
    rw [List.mem_filter] at hc
    simp only [Bool.and_eq_true, beq_iff_eq] at hc
    exact ⟨c, hc.1, ⟨hc.2.2, hc.2.1⟩, rfl⟩
  · rintro ⟨c, h1, h2, rfl⟩
    refine ⟨c, List.mem_filter.2 ⟨h1, ?_⟩, rfl⟩
    simp only [Bool.and_eq_true, beq_iff_eq]
    exact ⟨h2.2, h2.1⟩

theorem expansion_nodup (h : PlanOk specs) (e x : Name) (items : List V) :
    ((instTasks specs e x items ++ collTasks specs e items).map Task.id).Nodup := by
  rw [List.map_append, List.nodup_append]
  refine ⟨?_, ?_, ?_⟩
  · unfold instTasks
    rw [List.map_flatMap]
    unfold List.Nodup
    rw [List.pairwise_flatMap]
    constructor
    · intro p _
      rw [List.map_map]
      have hm : ((memberSpecs specs e).map (·.baseId)).Nodup :=
        h.ids_nodup.sublist (List.filter_sublist.map _)
      rw [List.Nodup, List.pairwise_map] at hm
      rw [List.pairwise_map]
      apply hm.imp_of_mem
      intro a b ha hb hne heq
      obtain ⟨a1, a2⟩ := mem_memberSpecs.1 ha
      obtain ⟨b1, b2⟩ := mem_memberSpecs.1 hb
      exact hne (h.inst_inj a a1 b b1 e e p.2 p.2 a2 b2 heq).2.2
    · have hz : (items.zipIdx.map Prod.snd).Nodup := by
        rw [List.zipIdx_map_snd]; exact List.nodup_range'
      rw [List.Nodup, List.pairwise_map] at hz
      apply hz.imp
      intro p q hne a ha b hb heq
      rw [List.map_map, List.mem_map] at ha hb
      obtain ⟨m, hm, rfl⟩ := ha
      obtain ⟨m', hm', rfl⟩ := hb
      obtain ⟨a1, a2⟩ := mem_memberSpecs.1 hm
      obtain ⟨b1, b2⟩ := mem_memberSpecs.1 hm'
      exact hne (h.inst_inj m a1 m' b1 e e p.2 q.2 a2 b2 heq).2.1
  · unfold collTasks
    rw [List.map_map]
    exact h.ids_nodup.sublist (List.filter_sublist.map _)
  · intro a ha b hb heq
    obtain ⟨t, ht, rfl⟩ := List.mem_map.1 ha
    obtain ⟨t', ht', rfl⟩ := List.mem_map.1 hb
    obtain ⟨m, h1, h2, i, item, _, rfl⟩ := mem_instTasks.1 ht
    obtain ⟨c, h3, h4, rfl⟩ := mem_collTasks.1 ht'
    exact h.inst_fresh m h1 c h3 e i h2 heq

/-- Uniqueness of what an expander yielded. -/
theorem Yielded.unique {tr : List (Event T V)} (hp : PlanOk specs) (hT : (doneIds tr).Nodup) {e x x' : Name}
    {items items' : List V} (h : Yielded ops specs tr e x items) (h' : Yielded ops specs tr e x' items') :
    x = x' ∧ items = items' := by
  obtain ⟨s, h1, h2, h3, ⟨n, h4, h4'⟩, r, v, h5, h6, h7⟩ := h
  obtain ⟨s', k1, k2, k3, ⟨n', k4, k4'⟩, r', v', k5, k6, k7⟩ := h'
  have hs : s = s' := spec_unique hp h1 k1 (h2.trans k2.symm)
  subst hs
  rw [h4] at k4
  cases k4
  have hr : r = r' := by
    clear h2 k2
    induction tr with
    | nil => cases h5
    | cons ev tr ih =>
      cases ev with
      | submit t =>
        simp only [List.mem_cons, reduceCtorEq, false_or] at h5 k5
        exact ih hT h5 k5
      | done i r0 =>
        have hT' : (i :: doneIds tr).Nodup := hT
        rw [List.nodup_cons] at hT'
        simp only [List.mem_cons, Event.done.injEq] at h5 k5
        rcases h5 with ⟨rfl, rfl⟩ | h5 <;> rcases k5 with ⟨hx, rfl⟩ | k5
        · rfl
        · exact absurd (mem_doneIds.2 ⟨_, k5⟩) hT'.1
        · subst hx; exact absurd (mem_doneIds.2 ⟨_, h5⟩) hT'.1
        · exact ih hT'.2 h5 k5
  subst hr
  subst h4' k4'
  rw [h6] at k6
  cases k6
  rw [h7] at k7
  cases k7
  exact ⟨rfl, rfl⟩

theorem Realized.spec {tr : List (Event T V)} {t : Task T V} (h : Realized ops specs tr t) :
    t.toTaskSpec ∈ specs := by
  cases h <;> assumption

/-- A realized expander is the plan's expander itself. -/
theorem Realized.of_expand {tr : List (Event T V)} {t : Task T V} (h : Realized ops specs tr t)
    (hp : t.purpose = .expand) : ∃ s ∈ specs, s.spawning = none ∧ t = mkTask s none none [] := by
  cases h with
  | static s h1 h2 => exact ⟨s, h1, h2, rfl⟩
  | inst s e x items i item h1 h2 h3 h4 => exact absurd hp h2.2.1
  | coll s e x items h1 h2 h3 =>
    have h2' : (collTask specs e items s).purpose = .gather := h2.2
    rw [h2'] at hp; cases hp

theorem mem_cacheWrite {c r : Dict Name V} {gr sp : Option Name} {k : Name}
    (h : ∀ p ∈ r, formatKey gr sp p.1 ≠ k) : (cacheWrite c r gr sp).get? k = c.get? k := by
  unfold cacheWrite
  induction r generalizing c with
  | nil => rfl
  | cons p r ih =>
    simp only [List.foldl_cons]
    rw [ih (fun q hq => h q (by simp [hq])), Dict.get?_set, if_neg (h p (by simp))]

theorem keys_of_del {r : Dict Name V} {k : Name} {p : Name × V} (h : p ∈ r.del k) : p.1 ≠ k := by
  unfold Dict.del at h
  have := (List.mem_filter.1 h).2
  simpa using this

/-- `writeTaskResults` for a realized expander: the cache holds the list of elements. -/
theorem write_expand {c c' : Dict Name V} {s : TaskSpec T V} {r : Dict Name V}
    (hp : s.purpose = .expand) (h : writeTaskResults ops c (mkTask s none none []) r = .ok c') :
    ∃ n v items, expanderNode s.nodes = some n ∧ r.get? n.name = some v ∧ ops.toList v = some items ∧
      c'.get? n.name = some (ops.ofList items) := by
  unfold writeTaskResults at h
  have hp' : (mkTask s none none ([] : Dict Name V)).purpose = .expand := hp
  rw [if_pos hp'] at h
  have hn : (mkTask s none none ([] : Dict Name V)).nodes = s.nodes := rfl
  rw [hn] at h
  split at h
  · cases h
  · rename_i n hn
    split at h
    · cases h
    · rename_i v hv
      split at h
      · cases h
      · rename_i items hi
        cases h
        refine ⟨n, v, items, hn, hv, hi, ?_⟩
        rw [mem_cacheWrite]
        · unfold cacheWrite
          simp only [List.foldl_cons, List.foldl_nil, formatKey_plain, Dict.get?_set, if_true]
        · intro p hp
          exact keys_of_del hp

/-- `finishTask` keeps the invariant. -/
theorem LInv.finishTask (hlaw : ∀ l, ops.toList (ops.ofList l) = some l) (hp : PlanOk specs)
    {l l' : Loop T V} (h : LInv ops g specs l) {id : Name} (hid : id ∈ l.futures.keys) {r : Dict Name V}
    (hr : ∃ t, .submit t ∈ l.trace ∧ t.id = id ∧ executeTask g t = .ok r)
    (hok : finishTask ops l id r = .ok l') : LInv ops g specs l' := by
  have hnd : ¬ Done l.trace id := by
    rw [← h.done_iff]
    rcases h.fut_ok id hid with h' | h' <;> rw [h'] <;> simp
  have hT := h.toTInv.append_done hnd hr
  unfold Verif.finishTask at hok
  split at hok
  · cases hok
  · rename_i s hs
    cases hok
    unfold updateTaskState at hs
    simp only [TaskState.isTerminal, Bool.not_true, Bool.false_eq_true, if_false, if_true] at hs
    split at hs
    · cases hs
    split at hs
    · cases hs
    rename_i t ht
    obtain ⟨hti, htr⟩ := h.pool_ok id t ht
    split at hs
    · cases hs
    rename_i c hc
    have hids : (l.sched.specs.map (·.baseId)).Nodup := by rw [h.specs_eq]; exact hp.ids_nodup
    split at hs
    · -- expander
      rename_i hpe
      obtain ⟨s0, hs0, hsp, rfl⟩ := htr.of_expand hpe
      have hbid : s0.baseId = id := hti
      obtain ⟨n, v, items, hn, hv, hi, hcache⟩ := write_expand hpe hc
      have hn' : expanderNode (mkTask s0 none none ([] : Dict Name V)).nodes = some n := hn
      rw [hn'] at hs
      simp only [formatKey_plain, hcache, hlaw] at hs
      cases hs
      have hy : Yielded ops specs (l.trace ++ [.done id r]) id n.name items :=
        ⟨s0, hs0, hbid, hpe, ⟨n, hn, rfl⟩, r, v, by simp, hv, hi⟩
      have hnoy : ∀ x' items', ¬ Yielded ops specs l.trace id x' items' := by
        rintro x' items' ⟨_, _, _, _, _, r', _, hd, _⟩
        exact hnd ⟨r', hd⟩
      rw [realizeGroup_eq { l.sched with states := l.sched.states.set id .successful, cache := c } _ _ _ hids]
      have hse : ({ l.sched with states := l.sched.states.set id .successful, cache := c } : Sched T V).specs = specs := h.specs_eq
      rw [hse, mkTask_id, hbid]
      refine h.finish hid hr c _ (expansion_nodup hp _ _ _) ?_ ?_ ?_ ?_ ?_
      · intro t' ht'
        cases hpool : l.sched.pool.get? t'.id with
        | none => rfl
        | some t'' =>
          exfalso
          obtain ⟨hii, hrr⟩ := h.pool_ok _ _ hpool
          rcases List.mem_append.1 ht' with ht' | ht'
          · obtain ⟨m, h1, h2, i, item, h3, rfl⟩ := mem_instTasks.1 ht'
            cases hrr with
            | static s' k1 k2 => exact hp.inst_fresh m h1 s' k1 id i h2 hii.symm
            | coll s' e x its k1 k2 k3 => exact hp.inst_fresh m h1 s' k1 id i h2 hii.symm
            | inst s' e x its j item' k1 k2 k3 k4 =>
              have := (hp.inst_inj _ k1 m h1 e id j i k2 h2 hii).1
              subst this
              exact hnoy _ _ k3
          · obtain ⟨c', h1, h2, rfl⟩ := mem_collTasks.1 ht'
            cases hrr with
            | static s' k1 k2 =>
              have := spec_unique hp k1 h1 hii
              subst this
              rw [h2.1] at k2; cases k2
            | coll s' e x its k1 k2 k3 =>
              have := spec_unique hp k1 h1 hii
              subst this
              have : e = id := by have a := k2.1; rw [h2.1] at a; exact (Option.some.inj a).symm
              subst this
              exact hnoy _ _ k3
            | inst s' e x its j item' k1 k2 k3 k4 => exact hp.inst_fresh _ k1 c' h1 e j k2 hii
      · intro t' ht'
        rcases List.mem_append.1 ht' with ht' | ht'
        · obtain ⟨m, h1, h2, i, item, h3, rfl⟩ := mem_instTasks.1 ht'
          exact .inst m id n.name items i item h1 h2 hy h3
        · obtain ⟨c', h1, h2, rfl⟩ := mem_collTasks.1 ht'
          exact .coll c' id n.name items h1 h2 hy
      · rintro s' _ _ ⟨p, h1, h2, h3, h4⟩
        have := spec_unique hp h1 hs0 (h4.trans hbid.symm)
        subst this
        exact absurd hpe h3
      · intro x' items' hy'
        obtain ⟨rfl, rfl⟩ := hy.unique hp hT.done_nodup hy'
        constructor
        · intro m hm hmm i hi'
          have hx : items[i]? = some items[i] := List.getElem?_eq_getElem hi'
          exact ⟨_, List.mem_append.2 (.inl (mem_instTasks.2 ⟨m, hm, hmm, i, _, hx, rfl⟩)), rfl⟩
        · intro c' hc' hcc
          exact ⟨_, List.mem_append.2 (.inr (mem_collTasks.2 ⟨c', hc', hcc, rfl⟩)), rfl⟩
      · intro s' _ _ _
        exact ⟨_, _, hy⟩
    · -- any other task
      rename_i hpe
      cases hs
      rw [realizeDependents_eq { l.sched with states := l.sched.states.set id .successful, cache := c } _ hids]
      have hmem : ∀ t' ∈ dependents { l.sched with states := l.sched.states.set id .successful, cache := c } t.baseId,
          ∃ s' ∈ specs, t.baseId ∈ s'.baseDeps ∧ s'.spawning = none ∧ l.sched.pool.get? s'.baseId = none ∧
            t' = mkTask s' none none [] := by
        intro t' ht'
        unfold dependents depGuard at ht'
        obtain ⟨s', hs', rfl⟩ := List.mem_map.1 ht'
        simp only [List.mem_filter, h.specs_eq, List.contains_iff_mem, Bool.and_eq_true, Bool.or_eq_true,
          Bool.not_eq_true', Option.isNone_iff_eq_none, beq_iff_eq, Dict.has_eq_false_iff] at hs'
        obtain ⟨⟨a1, a2⟩, a3, a4⟩ := hs'
        refine ⟨s', a1, a2, ?_, a4, rfl⟩
        rcases a3 with a3 | a3
        · exact a3
        · exact hp.expand_static s' a1 a3
      refine h.finish hid hr c _ ?_ ?_ ?_ ?_ ?_ ?_
      · unfold dependents
        rw [List.map_map]
        refine hids.sublist (List.Sublist.map _ ?_)
        exact List.filter_sublist.trans List.filter_sublist
      · intro t' ht'
        obtain ⟨s', _, _, _, a4, rfl⟩ := hmem t' ht'
        exact a4
      · intro t' ht'
        obtain ⟨s', a1, _, a3, _, rfl⟩ := hmem t' ht'
        exact .static s' a1 a3
      · rintro s' hs' hsp ⟨p, h1, h2, h3, h4⟩
        cases hpool : l.sched.pool.get? s'.baseId with
        | some t' => exact .inl ⟨t', rfl⟩
        | none =>
          refine .inr ⟨mkTask s' none none [], ?_, rfl⟩
          have hb : t.baseId ∈ s'.baseDeps := by
            cases htr with
            | static s0 k1 k2 =>
              have : (mkTask s0 none none ([] : Dict Name V)).baseId = id := hti
              rw [this, ← h4]; exact h2
            | coll s0 e x its k1 k2 k3 =>
              have : (collTask specs e its s0).baseId = id := hti
              rw [this, ← h4]; exact h2
            | inst s0 e x its j item' k1 k2 k3 k4 =>
              exact absurd (hti.trans h4.symm) (hp.inst_fresh s0 k1 p h1 e j k2)
          unfold dependents depGuard
          refine List.mem_map.2 ⟨s', ?_, rfl⟩
          simp only [List.mem_filter, h.specs_eq, List.contains_iff_mem, Bool.and_eq_true, Bool.or_eq_true,
            Bool.not_eq_true', Option.isNone_iff_eq_none, beq_iff_eq, Dict.has_eq_false_iff]
          exact ⟨⟨hs', hb⟩, .inl hsp, hpool⟩
      · rintro x items ⟨s', h1, h2, h3, h4, _⟩
        exfalso
        cases htr with
        | static s0 k1 k2 =>
          have := spec_unique hp k1 h1 (hti.trans h2.symm)
          subst this
          exact hpe h3
        | coll s0 e x its k1 k2 k3 =>
          have := spec_unique hp k1 h1 (hti.trans h2.symm)
          subst this
          exact hpe h3
        | inst s0 e x its j item' k1 k2 k3 k4 =>
          exact hp.inst_fresh s0 k1 s' h1 e j k2 (hti.trans h2.symm)
      · intro s' h1 h3 h2
        exfalso
        cases htr with
        | static s0 k1 k2 =>
          have := spec_unique hp k1 h1 (hti.trans h2.symm)
          subst this
          exact hpe h3
        | coll s0 e x its k1 k2 k3 =>
          have := spec_unique hp k1 h1 (hti.trans h2.symm)
          subst this
          exact hpe h3
        | inst s0 e x its j item' k1 k2 k3 k4 =>
          exact hp.inst_fresh s0 k1 s' h1 e j k2 (hti.trans h2.symm)

end Verif
