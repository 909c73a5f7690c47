import Verif.Proofs.Sched1

/-! Invariant of the orchestration loop. -/
namespace Verif
variable {T V : Type}

/-- The specs repeated for expander `e` (the list of state.py:255-261). -/
def memberSpecs (specs : List (TaskSpec T V)) (e : Name) : List (TaskSpec T V) :=
  specs.filter (fun t => t.spawning == some e && t.purpose != .expand && t.purpose != .gather)

theorem mem_memberSpecs {specs : List (TaskSpec T V)} {e : Name} {m : TaskSpec T V} :
    m ∈ memberSpecs specs e ↔ m ∈ specs ∧ m.MemberOf e := by
  unfold memberSpecs TaskSpec.MemberOf
  rw [List.mem_filter]
  simp [and_assoc]

/-- Names of the groups of an expansion. -/
def groupNames (items : List V) : List Name := (List.range items.length).map toString

/-- The copy of `s` for element `i`. -/
def instTask (specs : List (TaskSpec T V)) (e x : Name) (i : Nat) (item : V) (s : TaskSpec T V) : Task T V :=
  { mkTask s (some e) (some (toString i)) [(x, item)] with
    realizedDeps := memberDeps (nameMap (memberSpecs specs e) e (toString i)) s.baseDeps }

/-- The collector task of an expansion. -/
def collTask (specs : List (TaskSpec T V)) (e : Name) (items : List V) (s : TaskSpec T V) : Task T V :=
  { mkTask s none none [] with
    realizedDeps := gatherDeps ((memberSpecs specs e).map (·.baseId))
      ((groupNames items).map (fun gn => nameMap (memberSpecs specs e) e gn)) s.baseDeps }

/-- The tasks that a run may realize. -/
inductive Realized (ops : TaskOps T V) (specs : List (TaskSpec T V)) (trace : List (Event T V)) : Task T V → Prop
  | static (s : TaskSpec T V) : s ∈ specs → s.spawning = none → Realized ops specs trace (mkTask s none none [])
  | inst (s : TaskSpec T V) (e x : Name) (items : List V) (i : Nat) (item : V) : s ∈ specs → s.MemberOf e →
      Yielded ops specs trace e x items → items[i]? = some item →
      Realized ops specs trace (instTask specs e x i item s)
  | coll (s : TaskSpec T V) (e x : Name) (items : List V) : s ∈ specs → s.CollectorOf e →
      Yielded ops specs trace e x items → Realized ops specs trace (collTask specs e items s)

theorem instTask_id (specs : List (TaskSpec T V)) (e x : Name) (i : Nat) (item : V) (s : TaskSpec T V) :
    (instTask specs e x i item s).id = instanceId e i s.baseId := rfl

theorem collTask_id (specs : List (TaskSpec T V)) (e : Name) (items : List V) (s : TaskSpec T V) :
    (collTask specs e items s).id = s.baseId := rfl

theorem mkTask_id (s : TaskSpec T V) (bind : Dict Name V) : (mkTask s none none bind).id = s.baseId := rfl

theorem Yielded.mono {ops : TaskOps T V} {specs : List (TaskSpec T V)} {tr tr' : List (Event T V)} {e x : Name}
    {items : List V} (hsub : ∀ id r, .done id r ∈ tr → .done id r ∈ tr') (h : Yielded ops specs tr e x items) :
    Yielded ops specs tr' e x items := by
  obtain ⟨s, h1, h2, h3, h4, r, v, h5, h6, h7⟩ := h
  exact ⟨s, h1, h2, h3, h4, r, v, hsub _ _ h5, h6, h7⟩

theorem Realized.mono {ops : TaskOps T V} {specs : List (TaskSpec T V)} {tr tr' : List (Event T V)} {t : Task T V}
    (hsub : ∀ id r, .done id r ∈ tr → .done id r ∈ tr') (h : Realized ops specs tr t) : Realized ops specs tr' t := by
  cases h with
  | static s h1 h2 => exact .static s h1 h2
  | inst s e x items i item h1 h2 h3 h4 => exact .inst s e x items i item h1 h2 (h3.mono hsub) h4
  | coll s e x items h1 h2 h3 => exact .coll s e x items h1 h2 (h3.mono hsub)

theorem spec_unique {specs : List (TaskSpec T V)} (h : PlanOk specs) {s s' : TaskSpec T V} (hs : s ∈ specs)
    (hs' : s' ∈ specs) (he : s.baseId = s'.baseId) : s = s' := by
  have hn := h.ids_nodup
  clear h
  induction specs with
  | nil => simp at hs
  | cons a l ih =>
    simp only [List.map_cons, List.nodup_cons] at hn
    rcases List.mem_cons.1 hs with h1 | h1 <;> rcases List.mem_cons.1 hs' with h2 | h2
    · rw [h1, h2]
    · exact absurd (List.mem_map.2 ⟨s', h2, by rw [← he, h1]⟩) hn.1
    · exact absurd (List.mem_map.2 ⟨s, h1, by rw [he, h2]⟩) hn.1
    · exact ih h1 h2 hn.2

theorem nameMap_get? (ms : List (TaskSpec T V)) (e gn d : Name) :
    (nameMap ms e gn).get? d =
      if d ∈ ms.map (·.baseId) then some (determineTaskId d (some e) (some gn)) else none := by
  unfold nameMap
  have := foldl_set_get? (fun d => determineTaskId d (some e) (some gn)) (ms.map (·.baseId)) [] d
  rw [List.foldl_map] at this
  rw [this]
  rfl

/-- Dependencies of a repeated task: just its base dependencies. -/
theorem instTask_deps {specs : List (TaskSpec T V)} (h : PlanOk specs) {e x : Name} {i : Nat} {item : V}
    {s : TaskSpec T V} (hs : s ∈ specs) (hm : s.MemberOf e) (d : Name) :
    d ∈ (instTask specs e x i item s).deps ↔ d ∈ s.baseDeps := by
  unfold Task.deps instTask memberDeps
  simp only
  rw [mem_deps_of_fold (f := memberDep (nameMap (memberSpecs specs e) e (toString i)))]
  have key : ∀ d ∈ s.baseDeps, memberDep (nameMap (memberSpecs specs e) e (toString i)) d = [d] := by
    intro d hd
    unfold memberDep
    rw [nameMap_get?, if_neg]
    intro hmem
    obtain ⟨m, hm1, hm2⟩ := List.mem_map.1 hmem
    obtain ⟨hm3, hm4⟩ := mem_memberSpecs.1 hm1
    have := h.member_use s hs m hm3 e hm4 (hm2 ▸ hd)
    exact hm.2.2 this.2
  constructor
  · rintro ⟨d', hd', hx⟩
    rw [key d' hd'] at hx
    simp only [List.mem_singleton] at hx
    exact hx ▸ hd'
  · intro hd
    refine ⟨d, hd, ?_⟩
    rw [key d hd]
    simp

/-- Dependencies of a collector: the copies of repeated tasks, and other tasks as they are. -/
theorem collTask_deps {specs : List (TaskSpec T V)} {e : Name} {items : List V} {s : TaskSpec T V} (d : Name) :
    d ∈ (collTask specs e items s).deps ↔
      (∃ m ∈ specs, m.MemberOf e ∧ m.baseId ∈ s.baseDeps ∧ ∃ i < items.length, d = instanceId e i m.baseId) ∨
      (d ∈ s.baseDeps ∧ ¬ ∃ m ∈ specs, m.MemberOf e ∧ m.baseId = d) := by
  unfold Task.deps collTask gatherDeps
  simp only
  rw [mem_deps_of_fold (f := fun d => if ((memberSpecs specs e).map (·.baseId)).contains d then
    ((groupNames items).map (fun gn => nameMap (memberSpecs specs e) e gn)).filterMap (fun nm => nm.get? d) else [d])]
  have hc : ∀ d, ((memberSpecs specs e).map (·.baseId)).contains d = true ↔ ∃ m ∈ specs, m.MemberOf e ∧ m.baseId = d := by
    intro d
    rw [List.contains_iff_mem, List.mem_map]
    constructor
    · rintro ⟨m, h1, h2⟩
      obtain ⟨h3, h4⟩ := mem_memberSpecs.1 h1
      exact ⟨m, h3, h4, h2⟩
    · rintro ⟨m, h1, h2, h3⟩
      exact ⟨m, mem_memberSpecs.2 ⟨h1, h2⟩, h3⟩
  have hl : ∀ d', d' ∈ (memberSpecs specs e).map (·.baseId) → ∀ y,
      y ∈ ((groupNames items).map (fun gn => nameMap (memberSpecs specs e) e gn)).filterMap (fun nm => nm.get? d') ↔
      ∃ i < items.length, y = instanceId e i d' := by
    intro d' hd' y
    rw [List.mem_filterMap]
    constructor
    · rintro ⟨nm, h1, h2⟩
      obtain ⟨gn, h3, rfl⟩ := List.mem_map.1 h1
      unfold groupNames at h3
      obtain ⟨i, h4, rfl⟩ := List.mem_map.1 h3
      rw [nameMap_get?, if_pos hd'] at h2
      exact ⟨i, List.mem_range.1 h4, (Option.some.inj h2).symm⟩
    · rintro ⟨i, h1, rfl⟩
      refine ⟨nameMap (memberSpecs specs e) e (toString i), List.mem_map.2 ⟨toString i, ?_, rfl⟩, ?_⟩
      · exact List.mem_map.2 ⟨i, List.mem_range.2 h1, rfl⟩
      · rw [nameMap_get?, if_pos hd']; rfl
  constructor
  · rintro ⟨d', hd', hx⟩
    split at hx
    · rename_i hcc
      have hcc' := hcc
      rw [List.contains_iff_mem] at hcc'
      obtain ⟨i, hi, rfl⟩ := (hl d' hcc' d).1 hx
      obtain ⟨m, h1, h2, h3⟩ := (hc d').1 hcc
      exact .inl ⟨m, h1, h2, h3 ▸ hd', i, hi, by rw [h3]⟩
    · rename_i hcc
      simp only [List.mem_singleton] at hx
      subst hx
      exact .inr ⟨hd', fun h => hcc ((hc _).2 h)⟩
  · rintro (⟨m, h1, h2, h3, i, hi, rfl⟩ | ⟨h1, h2⟩)
    · refine ⟨m.baseId, h3, ?_⟩
      have : ((memberSpecs specs e).map (·.baseId)).contains m.baseId = true := (hc _).2 ⟨m, h1, h2, rfl⟩
      rw [if_pos this]
      exact (hl _ (List.contains_iff_mem.1 this) _).2 ⟨i, hi, rfl⟩
    · refine ⟨d, h1, ?_⟩
      rw [if_neg (fun h => h2 ((hc _).1 h))]
      simp

/-- Two copies of a task that differ at most in bound inputs and remaining dependencies. -/
def SameCore (t t' : Task T V) : Prop :=
  t.toTaskSpec = t'.toTaskSpec ∧ t.groupId = t'.groupId ∧ t.spawningTaskId = t'.spawningTaskId

theorem SameCore.id_eq {t t' : Task T V} (h : SameCore t t') : t.id = t'.id := by
  unfold Task.id
  rw [h.1, h.2.1, h.2.2]

theorem SameCore.trans {t t' t'' : Task T V} (h : SameCore t t') (h' : SameCore t' t'') : SameCore t t'' :=
  ⟨h.1.trans h'.1, h.2.1.trans h'.2.1, h.2.2.trans h'.2.2⟩

theorem bindTask_core {ops : TaskOps T V} {g : Graph T V} {s : Sched T V} {t t' : Task T V}
    (h : bindTask ops g s t = .ok t') : SameCore t' t := by
  unfold bindTask at h
  simp only at h
  split at h
  · cases h
  · split at h
    · cases h
    · split at h
      · cases h
      · cases h; exact ⟨rfl, rfl, rfl⟩

/-- What holds of the trace at any time, also after an exception. -/
structure TInv (ops : TaskOps T V) (g : Graph T V) (specs : List (TaskSpec T V)) (tr : List (Event T V)) : Prop where
  sub_nodup : (submittedIds tr).Nodup
  done_nodup : (doneIds tr).Nodup
  submit_ok : ∀ pre t post, tr = pre ++ .submit t :: post →
    ∃ t0, Realized ops specs pre t0 ∧ SameCore t t0 ∧ ∀ d ∈ t0.deps, Done pre d
  done_ok : ∀ pre id r post, tr = pre ++ .done id r :: post →
    ∃ t, .submit t ∈ pre ∧ t.id = id ∧ executeTask g t = .ok r

/-- Invariant of the loop between any two of its actions. -/
structure LInv (ops : TaskOps T V) (g : Graph T V) (specs : List (TaskSpec T V)) (l : Loop T V) : Prop
    extends TInv ops g specs l.trace where
  specs_eq : l.sched.specs = specs
  pool_nodup : l.sched.pool.keys.Nodup
  states_nodup : l.sched.states.keys.Nodup
  pool_ok : ∀ id t, l.sched.pool.get? id = some t → t.id = id ∧ Realized ops specs l.trace t
  pool_none : ∀ id, l.sched.pool.get? id = none → stOf l.sched id = .uninitialized
  pool_some : ∀ id t, l.sched.pool.get? id = some t → stOf l.sched id ≠ .uninitialized
  keys_ok : ∀ k ∈ l.sched.states.keys, ∃ id t, l.sched.pool.get? id = some t ∧ (k = id ∨ k ∈ t.deps)
  done_iff : ∀ id, stOf l.sched id = .successful ↔ Done l.trace id
  queue_ok : ∀ t ∈ l.sched.queue, stOf l.sched t.id = .queued ∧ t.id ∉ l.futures.keys ∧
    ∃ t0, l.sched.pool.get? t.id = some t0 ∧ SameCore t t0
  queue_nodup : (l.sched.queue.map Task.id).Nodup
  fut_nodup : l.futures.keys.Nodup
  fut_ok : ∀ id ∈ l.futures.keys, stOf l.sched id = .queued ∨ stOf l.sched id = .running
  fut_now : ∀ id r, l.futures.get? id = some (.now r) →
    ∃ t, .submit t ∈ l.trace ∧ t.id = id ∧ executeTask g t = .ok r
  fut_later : ∀ id t, l.futures.get? id = some (.later t) → .submit t ∈ l.trace ∧ t.id = id
  queued_in : ∀ id, stOf l.sched id = .queued → id ∈ l.sched.queue.map Task.id ∨ id ∈ l.futures.keys
  running_in : ∀ id, stOf l.sched id = .running → id ∈ l.futures.keys
  blocked : ∀ id t, l.sched.pool.get? id = some t → stOf l.sched id = .initialized →
    ∃ d ∈ t.deps, stOf l.sched d ≠ .successful
  started : ∀ id t, l.sched.pool.get? id = some t → stOf l.sched id ≠ .initialized →
    ∀ d ∈ t.deps, stOf l.sched d = .successful
  sub_iff : ∀ id, id ∈ submittedIds l.trace ↔
    id ∈ l.futures.keys ∨ stOf l.sched id = .successful ∨ stOf l.sched id = .failed
  static_in : ∀ s ∈ specs, s.spawning = none →
    (s.baseDeps = [] ∨ ∃ p ∈ specs, p.baseId ∈ s.baseDeps ∧ p.purpose ≠ .expand ∧
      stOf l.sched p.baseId = .successful) → ∃ t, l.sched.pool.get? s.baseId = some t
  exp_in : ∀ e x items, Yielded ops specs l.trace e x items →
    (∀ m ∈ specs, m.MemberOf e → ∀ i < items.length, ∃ t, l.sched.pool.get? (instanceId e i m.baseId) = some t) ∧
    (∀ c ∈ specs, c.CollectorOf e → ∃ t, l.sched.pool.get? c.baseId = some t)
  exp_done : ∀ s ∈ specs, s.purpose = .expand → Done l.trace s.baseId → ∃ x items, Yielded ops specs l.trace s.baseId x items

end Verif
