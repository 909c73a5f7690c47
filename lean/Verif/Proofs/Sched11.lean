import Verif.Proofs.Sched10

/-! Invariance of what is known about bound inputs. -/
namespace Verif
variable {T V : Type}
variable {ops : TaskOps T V} {g : Graph T V} {specs : List (TaskSpec T V)} {ex : Executors}

theorem Realized.dyn_nodup {tr : List (Event T V)} {t : Task T V} (h : Realized ops specs tr t) :
    t.dynamicInputs.keys.Nodup := by
  cases h with
  | static s h1 h2 => simp [mkTask, Dict.keys]
  | inst s e x items i item h1 h2 h3 h4 => simp [instTask, mkTask, Dict.keys]
  | coll s e x items h1 h2 h3 => simp [collTask, mkTask, Dict.keys]

theorem LInv.queue_deps {l : Loop T V} (h : LInv ops g specs l) {t t0 : Task T V} (ht : t ∈ l.sched.queue)
    (ht0 : l.sched.pool.get? t.id = some t0) : ∀ d ∈ t0.deps, Done l.trace d := by
  obtain ⟨hst, _, _⟩ := h.queue_ok t ht
  intro d hd
  rw [← h.done_iff]
  exact h.started _ t0 ht0 (by rw [hst]; simp) d hd

/-- A task of the queue that is still in the queue. -/
theorem QueueOk.keep {c0 : Dict Name V} {l l' : Loop T V} (h : LInv ops g specs l) (hq : QueueOk ops g specs c0 l)
    (hn : (doneIds l'.trace).Nodup) (hsub : ∀ id r, .done id r ∈ l.trace → .done id r ∈ l'.trace)
    (hpool : ∀ k t, l.sched.pool.get? k = some t → l'.sched.pool.get? k = some t)
    {t : Task T V} (ht : t ∈ l.sched.queue) {t0 : Task T V} (ht0 : l'.sched.pool.get? t.id = some t0) :
    t.dynamicInputs.keys.Nodup ∧
    (∀ k v, t.dynamicInputs.get? k = some v → GoodInput ops g specs c0 l'.trace t0 k v) ∧
    (∀ k v, t0.dynamicInputs.get? k = some v → t.dynamicInputs.get? k = some v) ∧
    (t.realizedDeps = t0.realizedDeps ∨
      ∀ arg, gatherArg ops t0.toTaskSpec = some arg → ∃ v, t.dynamicInputs.get? arg = some v) := by
  obtain ⟨_, _, t1, ht1, _⟩ := h.queue_ok t ht
  have := hpool _ _ ht1
  rw [ht0] at this
  cases this
  obtain ⟨q1, q2, q3, q4⟩ := hq t ht t0 ht1
  exact ⟨q1, fun k v hk => (q2 k v hk).mono hsub hn (h.queue_deps ht ht1), q3, q4⟩

/-- A task as it is in the pool. -/
theorem QueueOk.fresh {c0 : Dict Name V} {tr : List (Event T V)} {t : Task T V} (h : Realized ops specs tr t) :
    t.dynamicInputs.keys.Nodup ∧
    (∀ k v, t.dynamicInputs.get? k = some v → GoodInput ops g specs c0 tr t k v) ∧
    (∀ k v, t.dynamicInputs.get? k = some v → t.dynamicInputs.get? k = some v) ∧
    (t.realizedDeps = t.realizedDeps ∨
      ∀ arg, gatherArg ops t.toTaskSpec = some arg → ∃ v, t.dynamicInputs.get? arg = some v) :=
  ⟨h.dyn_nodup, fun _ _ hk => .inl hk, fun _ _ hk => hk, .inl rfl⟩

theorem bindTask_rejected {s : Sched T V} {t t' : Task T V} (h : bindTask ops g s t = .ok t') :
    t'.realizedDeps = t.realizedDeps ∨ t.purpose = .gather := by
  unfold bindTask at h
  simp only at h
  split at h
  · cases h
  rename_i dyn deps hstart
  split at h
  · cases h
  split at h
  · cases h
  cases h
  by_cases hg : t.purpose = .gather
  · exact .inr hg
  · unfold bindStart at hstart
    rw [if_neg hg] at hstart
    cases hstart
    exact .inl rfl

theorem mem_readyList {s : Sched T V} {t : Task T V} (h : t ∈ readyList s) : t ∈ s.pool.map (·.2) := by
  unfold readyList at h
  exact (List.mem_filter.1 h).1

theorem QueueOk.finish (hlaw : ∀ l, ops.toList (ops.ofList l) = some l) (hp : PlanOk specs)
    {c0 : Dict Name V} {l l' : Loop T V} (h : LInv ops g specs l) (hq : QueueOk ops g specs c0 l) {id : Name}
    (hid : id ∈ l.futures.keys) {r : Dict Name V}
    (hr : ∃ t, .submit t ∈ l.trace ∧ t.id = id ∧ executeTask g t = .ok r)
    (hok : finishTask ops l id r = .ok l') : QueueOk ops g specs c0 l' := by
  have hl' := h.finishTask hlaw hp hid hr hok
  obtain ⟨t, c, new, h1, h2, h3, h4, h5⟩ := finish_fresh hlaw hp h hid hok
  obtain ⟨p1, p2, p3⟩ := finish_pool new
    { l.sched with states := l.sched.states.set id .successful, cache := c } h4 h5
  obtain ⟨r1, r2, r3, r4, _⟩ := register_fold new
    { l.sched with states := l.sched.states.set id .successful, cache := c } h4
  obtain ⟨e1, e2, e3, e4, _⟩ := enqueueReady_spec (new.foldl Sched.register
    { l.sched with states := l.sched.states.set id .successful, cache := c })
  have hqueue : l'.sched.queue = l.sched.queue ++ readyList (new.foldl Sched.register
    { l.sched with states := l.sched.states.set id .successful, cache := c }) := by
    rw [h3]
    simp only [e4, r2]
  have hpool : l'.sched.pool = (new.foldl Sched.register
    { l.sched with states := l.sched.states.set id .successful, cache := c }).pool := by
    rw [h3]
    exact e2
  intro q hqm t0 ht0
  rw [hqueue] at hqm
  rcases List.mem_append.1 hqm with hqm | hqm
  · refine QueueOk.keep h hq hl'.done_nodup ?_ ?_ hqm ht0
    · intro i r' hi; rw [h3]; simp [hi]
    · intro k t' hk; rw [h3]; exact p1 k t' hk
  · have hm := mem_readyList hqm
    rw [← hpool] at hm
    have hids := fun k t hk => (hl'.pool_ok k t hk).1
    have := (mem_pool_map hids hl'.pool_nodup).1 hm
    rw [this] at ht0
    cases ht0
    exact QueueOk.fresh (hl'.pool_ok _ _ this).2

theorem done_snoc_sub {tr : List (Event T V)} {t : Task T V} (id : Name) (r : Dict Name V)
    (h : .done id r ∈ tr) : .done id r ∈ tr ++ [.submit t] := by simp [h]

theorem QueueOk.act (hlaw : ∀ l, ops.toList (ops.ofList l) = some l) (hp : PlanOk specs) (hk : KeysOk specs)
    {c0 : Dict Name V} (hc0 : HasRepeated specs → ∀ key v, c0.get? key = some v → ColonFree key)
    {l l' : Loop T V} (h : LInv ops g specs l) (hc : CInv ops c0 l) (hq : QueueOk ops g specs c0 l)
    (ha : Act ops g ex l l') : QueueOk ops g specs c0 l' := by
  have hl' := h.act hlaw hp ha
  have hkk : ∀ id f, l.futures.get? id = some f → id ∈ l.futures.keys := fun id f hf =>
    Dict.mem_keys_iff.2 ⟨f, hf⟩
  cases ha with
  | submitNow t rest t' r h1 h2 h3 h4 =>
    intro q hqm t0 ht0
    exact QueueOk.keep h hq hl'.done_nodup (done_snoc_sub) (fun _ _ hx => hx) (by rw [h1]; exact List.mem_cons_of_mem _ hqm) ht0
  | submitLater t rest t' h1 h2 h3 =>
    intro q hqm t0 ht0
    exact QueueOk.keep h hq hl'.done_nodup (done_snoc_sub) (fun _ _ hx => hx) (by rw [h1]; exact List.mem_cons_of_mem _ hqm) ht0
  | reject t rest t' h1 h2 h3 =>
    intro q hqm t0 ht0
    rcases List.mem_cons.1 hqm with rfl | hqm
    · have hcore := bindTask_core h2
      have ht : t ∈ l.sched.queue := by rw [h1]; simp
      have ht0' : l.sched.pool.get? t.id = some t0 := by rw [← hcore.id_eq]; exact ht0
      obtain ⟨_, _, t1, ht1, hc1⟩ := h.queue_ok t ht
      rw [ht0'] at ht1
      cases ht1
      have hb := LInv.bind_ok hp hk hc0 h hc hq ht ht0' hc1 h2
      refine ⟨hb.nodup, hb.good, hb.own, ?_⟩
      by_cases hg : t0.purpose = .gather
      · right
        intro arg harg
        obtain ⟨a, v, b1, b2⟩ := hb.gather hg
        rw [harg] at b1
        cases b1
        exact ⟨v, b2⟩
      · have hg' : t.purpose ≠ .gather := by rw [hc1.1]; exact hg
        rcases bindTask_rejected h2 with hr | hr
        · rcases (hq t ht t0 ht0').2.2.2 with h4 | h4
          · exact .inl (hr.trans h4)
          · right
            intro arg harg
            obtain ⟨v, hv⟩ := h4 arg harg
            -- the value bound earlier is kept
            unfold bindTask at h2
            simp only at h2
            split at h2
            · cases h2
            split at h2
            · cases h2
            split at h2
            · cases h2
            cases h2
            refine ⟨v, ?_⟩
            simp only [Dict.get?_merge _ _ (hq t ht t0 ht0').1, hv, Option.some_or]
        · exact absurd hr hg'
    · exact QueueOk.keep h hq hl'.done_nodup (fun _ _ hx => hx) (fun _ _ hx => hx)
        (by rw [h1]; exact List.mem_cons_of_mem _ hqm) ht0
  | running id t h1 =>
    intro q hqm t0 ht0
    exact hq q hqm t0 ht0
  | failed id t h1 =>
    intro q hqm t0 ht0
    exact hq q hqm t0 ht0
  | finishNow _ id r h1 h2 => exact QueueOk.finish hlaw hp h hq (hkk _ _ h1) (h.fut_now id r h1) h2
  | finishLater _ id t r h1 h2 h3 =>
    obtain ⟨a, b⟩ := h.fut_later id t h1
    exact QueueOk.finish hlaw hp h hq (hkk _ _ h1) ⟨t, a, b, h2⟩ h3

theorem SubmitOk.submit (hp : PlanOk specs) (hk : KeysOk specs)
    {c0 : Dict Name V} (hc0 : HasRepeated specs → ∀ key v, c0.get? key = some v → ColonFree key)
    {l : Loop T V} (h : LInv ops g specs l) (hc : CInv ops c0 l) (hq : QueueOk ops g specs c0 l)
    (hs : SubmitOk ops g specs c0 l.trace) {t t' : Task T V} {rest : List (Task T V)} (h1 : l.sched.queue = t :: rest)
    (h2 : bindTask ops g l.sched t = .ok t') : SubmitOk ops g specs c0 (l.trace ++ [.submit t']) := by
  intro pre u post heq
  rcases List.eq_nil_or_concat post with rfl | ⟨post', x, rfl⟩
  · have := List.append_inj' heq (by simp)
    simp only [List.cons.injEq, Event.submit.injEq, and_true] at this
    obtain ⟨rfl, rfl⟩ := this
    have hcore := bindTask_core h2
    have ht : t ∈ l.sched.queue := by rw [h1]; simp
    obtain ⟨_, _, t0, ht0, hc1⟩ := h.queue_ok t ht
    exact ⟨t0, (h.pool_ok _ _ ht0).2, hcore.trans hc1, h.queue_deps ht ht0,
      LInv.bind_ok hp hk hc0 h hc hq ht ht0 hc1 h2⟩
  · rw [List.concat_eq_append, ← List.cons_append, ← List.append_assoc] at heq
    have := List.append_inj' heq (by simp)
    exact hs pre u post' this.1

theorem SubmitOk.done {c0 : Dict Name V} {tr : List (Event T V)} (hs : SubmitOk ops g specs c0 tr) (id : Name)
    (r : Dict Name V) : SubmitOk ops g specs c0 (tr ++ [.done id r]) := by
  intro pre u post heq
  rcases List.eq_nil_or_concat post with rfl | ⟨post', x, rfl⟩
  · have := List.append_inj' heq (by simp)
    simp at this
  · rw [List.concat_eq_append, ← List.cons_append, ← List.append_assoc] at heq
    have := List.append_inj' heq (by simp)
    exact hs pre u post' this.1

theorem finish_trace {l l' : Loop T V} {id : Name} {r : Dict Name V} (h : finishTask ops l id r = .ok l') :
    l'.trace = l.trace ++ [.done id r] := by
  unfold finishTask at h
  split at h
  · cases h
  · cases h; rfl

theorem SubmitOk.act (hp : PlanOk specs) (hk : KeysOk specs)
    {c0 : Dict Name V} (hc0 : HasRepeated specs → ∀ key v, c0.get? key = some v → ColonFree key)
    {l l' : Loop T V} (h : LInv ops g specs l) (hc : CInv ops c0 l) (hq : QueueOk ops g specs c0 l)
    (hs : SubmitOk ops g specs c0 l.trace) (ha : Act ops g ex l l') : SubmitOk ops g specs c0 l'.trace := by
  cases ha with
  | submitNow t rest t' r h1 h2 h3 h4 => exact SubmitOk.submit hp hk hc0 h hc hq hs h1 h2
  | submitLater t rest t' h1 h2 h3 => exact SubmitOk.submit hp hk hc0 h hc hq hs h1 h2
  | reject t rest t' h1 h2 h3 => exact hs
  | running id t h1 => exact hs
  | failed id t h1 => exact hs
  | finishNow _ id r h1 h2 => rw [finish_trace h2]; exact hs.done id r
  | finishLater _ id t r h1 h2 h3 => rw [finish_trace h3]; exact hs.done id r

/-- All invariants together. -/
structure AInv (ops : TaskOps T V) (g : Graph T V) (specs : List (TaskSpec T V)) (c0 : Dict Name V) (l : Loop T V) :
    Prop where
  loop : LInv ops g specs l
  cache : CInv ops c0 l
  queue : QueueOk ops g specs c0 l
  submit : SubmitOk ops g specs c0 l.trace

theorem AInv.act (hlaw : ∀ l, ops.toList (ops.ofList l) = some l) (hp : PlanOk specs) (hk : KeysOk specs)
    {c0 : Dict Name V} (hc0 : HasRepeated specs → ∀ key v, c0.get? key = some v → ColonFree key)
    {l l' : Loop T V} (h : AInv ops g specs c0 l) (ha : Act ops g ex l l') : AInv ops g specs c0 l' :=
  ⟨h.loop.act hlaw hp ha, CInv.act hlaw hp hk h.loop h.cache ha,
    QueueOk.act hlaw hp hk hc0 h.loop h.cache h.queue ha, SubmitOk.act hp hk hc0 h.loop h.cache h.queue h.submit ha⟩

theorem AInv.acts (hlaw : ∀ l, ops.toList (ops.ofList l) = some l) (hp : PlanOk specs) (hk : KeysOk specs)
    {c0 : Dict Name V} (hc0 : HasRepeated specs → ∀ key v, c0.get? key = some v → ColonFree key)
    {l l' : Loop T V} (h : AInv ops g specs c0 l) (ha : Acts ops g ex l l') : AInv ops g specs c0 l' := by
  induction ha with
  | refl => exact h
  | tail _ h2 ih => exact ih.act hlaw hp hk hc0 h2

theorem initLoop_queue (hp : PlanOk specs) (c0 : Dict Name V) {t : Task T V}
    (ht : t ∈ (initLoop specs c0).sched.queue) : (initLoop specs c0).sched.pool.get? t.id = some t := by
  have hmem : ∀ t ∈ initTasks specs, t.baseDeps.length = 0 := by
    intro t ht
    unfold initTasks at ht
    obtain ⟨s, hs, rfl⟩ := List.mem_map.1 ht
    rw [List.mem_filter] at hs
    have h2 : s.baseDeps = [] := by simpa using hs.2
    show s.baseDeps.length = 0
    rw [h2]; rfl
  have hnd : ((initTasks specs).map Task.id).Nodup := by
    unfold initTasks
    rw [List.map_map]
    exact hp.ids_nodup.sublist (List.filter_sublist.map _)
  obtain ⟨r1, r2, r3, r4, r5, r6, r7, r8⟩ := register_fold (initTasks specs)
    { specs, pool := [], states := [], queue := [], cache := c0 } hnd
  unfold initLoop initSched at ht ⊢
  simp only at ht ⊢
  rw [init_register] at ht ⊢
  generalize (initTasks specs).foldl Sched.register
    { specs, pool := [], states := [], queue := [], cache := c0 } = s1 at r1 r2 r3 r4 r5 r6 r7 r8 ht ⊢
  simp only at r1 r2 r3 r4 r5 r6 r7 r8
  have hp1 : ∀ k t, s1.pool.get? k = some t → t.id = k ∧ t ∈ initTasks specs := by
    intro k t hk
    rw [r4] at hk
    have : Dict.get? ([] : Dict Name (Task T V)) k = none := rfl
    rw [this, Option.or_none] at hk
    exact ⟨by simpa using List.find?_some hk, List.mem_of_find?_eq_some hk⟩
  have hnp : s1.pool.keys.Nodup := r8 (by simp [Dict.keys])
  have hids := fun k t hk => (hp1 k t hk).1
  have hall : ∀ t ∈ s1.pool.map (·.2), t.baseDeps.length = 0 := by
    intro t ht
    exact hmem t (hp1 _ _ ((mem_pool_map hids hnp).1 ht)).2
  rw [init_queue _ hall] at ht ⊢
  obtain ⟨e1, e2, e3, e4, _⟩ := enqueue_fold (s1.pool.map (·.2)) s1
  rw [e4, r2, List.nil_append] at ht
  rw [e2]
  exact (mem_pool_map hids hnp).1 ht

theorem AInv.init (hp : PlanOk specs) (c0 : Dict Name V) : AInv ops g specs c0 (initLoop specs c0) where
  loop := LInv.init hp c0
  cache := CInv.init c0
  queue := by
    intro t ht t0 ht0
    have := initLoop_queue hp c0 ht
    rw [this] at ht0
    cases ht0
    exact QueueOk.fresh ((LInv.init (ops := ops) (g := g) hp c0).pool_ok _ _ this).2
  submit := by
    intro pre t post h
    have : (initLoop specs c0).trace = [] := rfl
    rw [this] at h
    simp at h

/-- The invariants along whole runs. -/
theorem run_ainv (hlaw : ∀ l, ops.toList (ops.ofList l) = some l) (hp : PlanOk specs) (hk : KeysOk specs)
    {c0 : Dict Name V} (hc0 : HasRepeated specs → ∀ key v, c0.get? key = some v → ColonFree key)
    (cs : List Choice) : (∀ l, runLoop ops g ex cs (initLoop specs c0) = .ok l → AInv ops g specs c0 l) ∧
    ∀ e l, runLoop ops g ex cs (initLoop specs c0) = .err e l →
      TInv ops g specs l.trace ∧ SubmitOk ops g specs c0 l.trace := by
  have h0 := AInv.init (ops := ops) (g := g) hp c0
  have := runLoop_outcome (ex := ex) hlaw hp cs h0.loop
  constructor
  · intro l hl
    rw [hl] at this
    exact h0.acts hlaw hp hk hc0 this
  · intro e l hl
    rw [hl] at this
    obtain ⟨l1, a, b⟩ := this
    have h1 := h0.acts hlaw hp hk hc0 a
    refine ⟨h1.loop.fault b, ?_⟩
    generalize l.trace = tr at b
    cases b with
    | submit t rest t' e h1' h2 h3 h4 => exact SubmitOk.submit hp hk hc0 h1.loop h1.cache h1.queue h1.submit h1' h2
    | _ => exact h1.submit

end Verif
