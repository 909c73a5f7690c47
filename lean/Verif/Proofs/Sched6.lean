import Verif.Proofs.Sched5

/-! Runs of the orchestration loop as sequences of atomic actions. -/
namespace Verif
variable {T V : Type}
variable {ops : TaskOps T V} {g : Graph T V} {specs : List (TaskSpec T V)} {ex : Executors}

/-- Atomic actions of the loop. -/
inductive Act (ops : TaskOps T V) (g : Graph T V) (ex : Executors) : Loop T V → Loop T V → Prop
  | submitNow (l t rest t' r) : l.sched.queue = t :: rest → bindTask ops g l.sched t = .ok t' →
      ex.sync t'.purpose = true → executeTask g t' = .ok r →
      Act ops g ex l { sched := { l.sched with queue := rest }, futures := l.futures.set t'.id (.now r),
                       trace := l.trace ++ [.submit t'] }
  | submitLater (l t rest t') : l.sched.queue = t :: rest → bindTask ops g l.sched t = .ok t' →
      ex.sync t'.purpose = false →
      Act ops g ex l { sched := { l.sched with queue := rest }, futures := l.futures.set t'.id (.later t'),
                       trace := l.trace ++ [.submit t'] }
  | reject (l t rest t') : l.sched.queue = t :: rest → bindTask ops g l.sched t = .ok t' →
      ex.sync t'.purpose = false → Act ops g ex l { l with sched := { l.sched with queue := t' :: rest } }
  | running (l id t) : l.futures.get? id = some (.later t) →
      Act ops g ex l { l with sched := { l.sched with states := l.sched.states.set id .running } }
  | failed (l id t) : l.futures.get? id = some (.later t) →
      Act ops g ex l { l with sched := { l.sched with states := l.sched.states.set id .failed },
                              futures := l.futures.del id }
  | finishNow (l l' id r) : l.futures.get? id = some (.now r) → finishTask ops l id r = .ok l' → Act ops g ex l l'
  | finishLater (l l' id t r) : l.futures.get? id = some (.later t) → executeTask g t = .ok r →
      finishTask ops l id r = .ok l' → Act ops g ex l l'

/-- Sequences of actions. -/
inductive Acts (ops : TaskOps T V) (g : Graph T V) (ex : Executors) : Loop T V → Loop T V → Prop
  | refl (l) : Acts ops g ex l l
  | tail {l l' l''} : Acts ops g ex l l' → Act ops g ex l' l'' → Acts ops g ex l l''

theorem Acts.trans {l l' l'' : Loop T V} (h : Acts ops g ex l l') (h' : Acts ops g ex l' l'') :
    Acts ops g ex l l'' := by
  induction h' with
  | refl => exact h
  | tail _ h2 ih => exact ih.tail h2

theorem Acts.single {l l' : Loop T V} (h : Act ops g ex l l') : Acts ops g ex l l' := (Acts.refl l).tail h

/-- How an exception can arise in state `l`, and the trace then. -/
inductive Fault (ops : TaskOps T V) (g : Graph T V) (ex : Executors) (l : Loop T V) :
    TaskErr → List (Event T V) → Prop
  | bind (t rest e) : l.sched.queue = t :: rest → bindTask ops g l.sched t = .error e → Fault ops g ex l e l.trace
  | submit (t rest t' e) : l.sched.queue = t :: rest → bindTask ops g l.sched t = .ok t' →
      ex.sync t'.purpose = true → executeTask g t' = .error e → Fault ops g ex l e (l.trace ++ [.submit t'])
  | later (id t e) : l.futures.get? id = some (.later t) → executeTask g t = .error e → Fault ops g ex l e l.trace
  | broken (id t) : l.futures.get? id = some (.later t) → Fault ops g ex l (.broken id) l.trace
  | finishNow (id r e l') : l.futures.get? id = some (.now r) → finishTask ops l id r = .err e l' →
      Fault ops g ex l e l.trace
  | finishLater (id t r e l') : l.futures.get? id = some (.later t) → executeTask g t = .ok r →
      finishTask ops l id r = .err e l' → Fault ops g ex l e l.trace

/-- Outcome of some part of the loop started in `l`. -/
def Outcome (ops : TaskOps T V) (g : Graph T V) (ex : Executors) (l : Loop T V) : Out (Loop T V) TaskErr → Prop
  | .ok l' => Acts ops g ex l l'
  | .err e l' => ∃ l1, Acts ops g ex l l1 ∧ Fault ops g ex l1 e l'.trace

theorem LInv.act (hlaw : ∀ l, ops.toList (ops.ofList l) = some l) (hp : PlanOk specs) {l l' : Loop T V}
    (h : LInv ops g specs l) (ha : Act ops g ex l l') : LInv ops g specs l' := by
  have hk : ∀ id f, l.futures.get? id = some f → id ∈ l.futures.keys := fun id f hf =>
    Dict.mem_keys_iff.2 ⟨f, hf⟩
  cases ha with
  | submitNow t rest t' r h1 h2 h3 h4 => exact h.submit h1 (bindTask_core h2) (.inl ⟨r, rfl, h4⟩)
  | submitLater t rest t' h1 h2 h3 => exact h.submit h1 (bindTask_core h2) (.inr rfl)
  | reject t rest t' h1 h2 h3 => exact h.reject h1 (bindTask_core h2)
  | running id t h1 => exact h.running (hk _ _ h1)
  | failed id t h1 => exact h.failed (hk _ _ h1)
  | finishNow _ id r h1 h2 =>
    exact h.finishTask hlaw hp (hk _ _ h1) (h.fut_now id r h1) h2
  | finishLater _ id t r h1 h2 h3 =>
    obtain ⟨a, b⟩ := h.fut_later id t h1
    exact h.finishTask hlaw hp (hk _ _ h1) ⟨t, a, b, h2⟩ h3

theorem LInv.acts (hlaw : ∀ l, ops.toList (ops.ofList l) = some l) (hp : PlanOk specs) {l l' : Loop T V}
    (h : LInv ops g specs l) (ha : Acts ops g ex l l') : LInv ops g specs l' := by
  induction ha with
  | refl => exact h
  | tail _ h2 ih => exact ih.act hlaw hp h2

theorem LInv.fault {l : Loop T V} (h : LInv ops g specs l) {e : TaskErr} {tr : List (Event T V)}
    (hf : Fault ops g ex l e tr) : TInv ops g specs tr := by
  cases hf with
  | submit t rest t' e h1 h2 h3 h4 => exact h.submit_trace h1 (bindTask_core h2)
  | _ => exact h.toTInv

theorem updateTaskState_nonterm (s : Sched T V) (id : Name) (r : Dict Name V) :
    updateTaskState ops s id .running r = .ok { s with states := s.states.set id .running } := rfl

theorem set_states_self {l : Loop T V} : ({ l with sched := l.sched } : Loop T V) = l := rfl

theorem updateTaskState_failed {l : Loop T V} (h : LInv ops g specs l) {id : Name} (hid : id ∈ l.futures.keys) :
    updateTaskState ops l.sched id .failed [] =
      .ok { l.sched with states := l.sched.states.set id .failed } := by
  have hpool : ∃ t, l.sched.pool.get? id = some t := by
    cases hp : l.sched.pool.get? id with
    | some t => exact ⟨t, rfl⟩
    | none =>
      have := h.pool_none id hp
      rcases h.fut_ok id hid with h' | h' <;> rw [h'] at this <;> cases this
  obtain ⟨t, ht⟩ := hpool
  have hq : (l.sched.queue.all (fun t => (l.sched.states.set id .failed).get? t.id == some .queued)) = true := by
    rw [List.all_eq_true]
    intro t ht
    obtain ⟨a, b, _⟩ := h.queue_ok t ht
    have hne : id ≠ t.id := fun he => b (he ▸ hid)
    rw [Dict.get?_set, if_neg hne, beq_iff_eq]
    unfold stOf at a
    cases hs : l.sched.states.get? t.id with
    | none => rw [hs] at a; cases a
    | some st => rw [hs] at a; simpa using a
  unfold updateTaskState
  simp only [TaskState.isTerminal, Bool.not_true, Bool.false_eq_true, if_false, hq, ht, reduceCtorEq]

theorem pollOne_outcome {c : Choice} {l : Loop T V} (h : LInv ops g specs l) {p : Name × Future T V}
    (hp : l.futures.get? p.1 = some p.2) :
    Outcome ops g ex l (pollOne ops g c p l) ∧
    ∀ l', pollOne ops g c p l = .ok l' → ∀ k, k ≠ p.1 → l'.futures.get? k = l.futures.get? k := by
  obtain ⟨id, f⟩ := p
  simp only at hp
  have hk : id ∈ l.futures.keys := Dict.mem_keys_iff.2 ⟨f, hp⟩
  have hfin : ∀ r l', finishTask ops l id r = .ok l' → ∀ k, k ≠ id → l'.futures.get? k = l.futures.get? k := by
    intro r l' hl k hne
    unfold finishTask at hl
    split at hl
    · cases hl
    · cases hl
      simp only [Dict.get?_del]
      rw [if_neg (Ne.symm hne)]
  have hrun : ∀ t, f = .later t → Outcome ops g ex l (reportState ops l id .running) ∧
      ∀ l', reportState ops l id .running = .ok l' → ∀ k, k ≠ id → l'.futures.get? k = l.futures.get? k := by
    intro t hf
    subst hf
    unfold reportState
    rw [updateTaskState_nonterm]
    simp only [TaskState.isTerminal, Bool.false_eq_true, if_false]
    refine ⟨Acts.single (.running l id t hp), ?_⟩
    intro l' hl k _
    cases hl
    rfl
  cases f with
  | now r =>
    unfold pollOne
    simp only
    refine ⟨?_, hfin r⟩
    cases hfn : finishTask ops l id r with
    | ok l' => exact Acts.single (.finishNow l l' id r hp hfn)
    | err e l' =>
      have htr : l'.trace = l.trace := by
        unfold finishTask at hfn
        split at hfn <;> cases hfn
        rfl
      exact ⟨l, .refl l, htr ▸ .finishNow id r e l' hp hfn⟩
  | later t =>
    unfold pollOne
    simp only
    cases c.obs id with
    | pending => exact hrun t rfl
    | broken =>
      refine ⟨⟨l, .refl l, .broken id t hp⟩, ?_⟩
      intro l' hl; cases hl
    | silentFail =>
      unfold reportState
      rw [updateTaskState_failed h hk]
      simp only [TaskState.isTerminal, if_true]
      refine ⟨Acts.single (.failed l id t hp), ?_⟩
      intro l' hl k hne
      cases hl
      simp only [Dict.get?_del]
      rw [if_neg (Ne.symm hne)]
    | late =>
      simp only
      cases he : executeTask g t with
      | error e =>
        refine ⟨⟨l, .refl l, .later id t e hp he⟩, ?_⟩
        intro l' hl; cases hl
      | ok r => exact hrun t rfl
    | finished =>
      simp only
      cases he : executeTask g t with
      | error e =>
        refine ⟨⟨l, .refl l, .later id t e hp he⟩, ?_⟩
        intro l' hl; cases hl
      | ok r =>
        refine ⟨?_, hfin r⟩
        simp only
        cases hfn : finishTask ops l id r with
        | ok l' => exact Acts.single (.finishLater l l' id t r hp he hfn)
        | err e l' =>
          have htr : l'.trace = l.trace := by
            unfold finishTask at hfn
            split at hfn <;> cases hfn
            rfl
          exact ⟨l, .refl l, htr ▸ .finishLater id t r e l' hp he hfn⟩

theorem poll_outcome (hlaw : ∀ l, ops.toList (ops.ofList l) = some l) (hpl : PlanOk specs) {c : Choice}
    (ps : List (Name × Future T V)) {l : Loop T V} (h : LInv ops g specs l)
    (hn : (ps.map (·.1)).Nodup) (hp : ∀ p ∈ ps, l.futures.get? p.1 = some p.2) :
    Outcome ops g ex l (forEach (pollOne ops g c) ps l) := by
  induction ps generalizing l with
  | nil => exact .refl l
  | cons p ps ih =>
    simp only [List.map_cons, List.nodup_cons] at hn
    obtain ⟨h1, h2⟩ := pollOne_outcome (ex := ex) (c := c) h (hp p (by simp))
    unfold forEach
    cases ho : pollOne ops g c p l with
    | err e l' =>
      rw [ho] at h1
      exact h1
    | ok l' =>
      rw [ho] at h1
      simp only [Out.bind]
      have h1' : Acts ops g ex l l' := h1
      have hl' := h.acts hlaw hpl h1'
      have hrec := ih hl' hn.2 (fun q hq => by
        rw [h2 l' ho q.1]
        · exact hp q (by simp [hq])
        · intro he; exact hn.1 (List.mem_map.2 ⟨q, hq, he⟩))
      revert hrec
      cases forEach (pollOne ops g c) ps l' with
      | ok l2 => exact fun hrec => Acts.trans h1' hrec
      | err e l2 => exact fun ⟨l3, a, b⟩ => ⟨l3, h1'.trans a, b⟩

theorem release_outcome {c : Choice} (l : Loop T V) :
    Outcome ops g ex l (releaseAndSubmit ops g ex c l) := by
  unfold releaseAndSubmit
  split
  · exact .refl l
  · rename_i t rest hq
    split
    · rename_i e he
      exact ⟨l, .refl l, .bind t rest e hq he⟩
    · rename_i t' ht'
      split
      · unfold submitTask
        by_cases hs : ex.sync t'.purpose = true
        · rw [if_pos hs]
          cases he : executeTask g t' with
          | error e => exact ⟨l, .refl l, .submit t rest t' e hq ht' hs he⟩
          | ok r => exact Acts.single (.submitNow l t rest t' r hq ht' hs he)
        · rw [if_neg hs]
          exact Acts.single (.submitLater l t rest t' hq ht' (by simpa using hs))
      · rename_i hs
        simp only [Bool.or_eq_true, not_or] at hs
        exact Acts.single (.reject l t rest t' hq ht' (by simpa using hs.1))

theorem Outcome.bind {l : Loop T V} {o : Out (Loop T V) TaskErr} {k : Loop T V → Out (Loop T V) TaskErr}
    (h : Outcome ops g ex l o) (hk : ∀ l', o = .ok l' → Outcome ops g ex l' (k l')) :
    Outcome ops g ex l (o.bind k) := by
  cases o with
  | err e l' => exact h
  | ok l' =>
    have h' : Acts ops g ex l l' := h
    have hrec := hk l' rfl
    simp only [Out.bind]
    revert hrec
    cases k l' with
    | ok l2 => exact fun hrec => Acts.trans h' hrec
    | err e l2 => exact fun ⟨l3, a, b⟩ => ⟨l3, h'.trans a, b⟩

theorem loopStep_outcome (hlaw : ∀ l, ops.toList (ops.ofList l) = some l) (hpl : PlanOk specs) {c : Choice}
    {l : Loop T V} (h : LInv ops g specs l) : Outcome ops g ex l (loopStep ops g ex c l) := by
  unfold loopStep
  refine (release_outcome (c := c) l).bind ?_
  intro l' hl'
  have ha : Acts ops g ex l l' := by
    have := release_outcome (ops := ops) (g := g) (ex := ex) (c := c) l
    rw [hl'] at this
    exact this
  have h' := h.acts hlaw hpl ha
  exact poll_outcome hlaw hpl l'.futures h' h'.fut_nodup (fun p hp => Dict.get?_of_mem h'.fut_nodup hp)

theorem runLoop_outcome (hlaw : ∀ l, ops.toList (ops.ofList l) = some l) (hpl : PlanOk specs) (cs : List Choice)
    {l : Loop T V} (h : LInv ops g specs l) : Outcome ops g ex l (runLoop ops g ex cs l) := by
  induction cs generalizing l with
  | nil => exact .refl l
  | cons c cs ih =>
    unfold runLoop
    split
    · exact .refl l
    · refine (loopStep_outcome hlaw hpl h).bind ?_
      intro l' hl'
      apply ih
      have := loopStep_outcome (ex := ex) (c := c) hlaw hpl h
      rw [hl'] at this
      exact h.acts hlaw hpl this

/-! ### The initial state -/

/-- The tasks of a fresh run. -/
def initTasks (specs : List (TaskSpec T V)) : List (Task T V) :=
  (specs.filter (fun s => s.baseDeps.length == 0)).map (fun s => mkTask s none none [])

theorem init_register (specs : List (TaskSpec T V)) (s : Sched T V) :
    specs.foldl (fun (s : Sched T V) spec =>
      if spec.baseDeps.length = 0 then s.register (mkTask spec none none []) else s) s =
    (initTasks specs).foldl Sched.register s := by
  unfold initTasks
  induction specs generalizing s with
  | nil => rfl
  | cons a l ih =>
    simp only [List.foldl_cons]
    by_cases h : a.baseDeps.length = 0
    · rw [if_pos h, ih, List.filter_cons_of_pos (by simpa using h)]
      rfl
    · rw [if_neg h, ih, List.filter_cons_of_neg (by simpa using h)]

theorem init_queue (ts : List (Task T V)) (h : ∀ t ∈ ts, t.baseDeps.length = 0) (s : Sched T V) :
    ts.foldl Sched.initQueueOne s = ts.foldl (fun (s : Sched T V) t =>
      { s with queue := s.queue ++ [t], states := s.states.set t.id .queued }) s := by
  induction ts generalizing s with
  | nil => rfl
  | cons t ts ih =>
    simp only [List.foldl_cons]
    rw [← ih (fun t' ht' => h t' (by simp [ht']))]
    unfold Sched.initQueueOne
    rw [if_pos (h t (by simp))]

theorem LInv.init (hp : PlanOk specs) (cache : Dict Name V) : LInv ops g specs (initLoop specs cache) := by
  have hmem : ∀ t ∈ initTasks specs, ∃ s ∈ specs, s.baseDeps = [] ∧ s.spawning = none ∧ t = mkTask s none none [] := by
    intro t ht
    unfold initTasks at ht
    obtain ⟨s, hs, rfl⟩ := List.mem_map.1 ht
    rw [List.mem_filter] at hs
    have hb : s.baseDeps = [] := by simpa using hs.2
    refine ⟨s, hs.1, hb, ?_, rfl⟩
    cases hsp : s.spawning with
    | none => rfl
    | some e => exact absurd hb (hp.spawned s hs.1 e hsp).1
  have hnd : ((initTasks specs).map Task.id).Nodup := by
    unfold initTasks
    rw [List.map_map]
    exact hp.ids_nodup.sublist (List.filter_sublist.map _)
  obtain ⟨r1, r2, r3, r4, r5, r6, r7, r8⟩ := register_fold (initTasks specs)
    { specs, pool := [], states := [], queue := [], cache } hnd
  unfold initLoop initSched
  simp only
  rw [init_register]
  generalize hs1 : (initTasks specs).foldl Sched.register
    { specs, pool := [], states := [], queue := [], cache } = s1 at r1 r2 r3 r4 r5 r6 r7 r8 ⊢
  simp only at r1 r2 r3 r4 r5 r6 r7 r8
  have hp1 : ∀ k t, s1.pool.get? k = some t → t.id = k ∧ t ∈ initTasks specs := by
    intro k t hk
    rw [r4] at hk
    have : Dict.get? ([] : Dict Name (Task T V)) k = none := rfl
    rw [this, Option.or_none] at hk
    exact ⟨by simpa using List.find?_some hk, List.mem_of_find?_eq_some hk⟩
  have hnp : s1.pool.keys.Nodup := r8 (by simp [Dict.keys])
  have hids := fun k t hk => (hp1 k t hk).1
  have hpm : ∀ t, t ∈ s1.pool.map (·.2) ↔ s1.pool.get? t.id = some t := fun t => mem_pool_map hids hnp
  have hall : ∀ t ∈ s1.pool.map (·.2), t.baseDeps.length = 0 := by
    intro t ht
    obtain ⟨s, _, hb, _, rfl⟩ := hmem t (hp1 _ _ ((hpm t).1 ht)).2
    show s.baseDeps.length = 0
    rw [hb]; rfl
  rw [init_queue _ hall]
  obtain ⟨e1, e2, e3, e4, e5, e6, e7⟩ := enqueue_fold (s1.pool.map (·.2)) s1
  generalize (s1.pool.map (·.2)).foldl (fun (s : Sched T V) t =>
      { s with queue := s.queue ++ [t], states := s.states.set t.id .queued }) s1 = s2 at e1 e2 e3 e4 e5 e6 e7 ⊢
  have hin : ∀ t ∈ initTasks specs, ∃ t', s1.pool.get? t.id = some t' := by
    intro t ht
    rw [r4]
    cases hf : (initTasks specs).find? (fun t' => t'.id == t.id) with
    | some t' => exact ⟨t', rfl⟩
    | none => rw [List.find?_eq_none] at hf; exact absurd (hf t ht) (by simp)
  have hkeys : ∀ k, k ∈ (s1.pool.map (·.2)).map Task.id ↔ ∃ t, s1.pool.get? k = some t := by
    intro k
    rw [pool_ids hids hnp, Dict.mem_keys_iff]
  have hst : ∀ k, stOf s2 k = if (s1.pool.get? k).isSome then .queued else .uninitialized := by
    intro k
    rw [e5]
    by_cases hk : ∃ t, s1.pool.get? k = some t
    · rw [if_pos ((hkeys k).2 hk), if_pos (Option.isSome_iff_exists.2 hk)]
    · rw [if_neg (fun h => hk ((hkeys k).1 h)), if_neg (fun h => hk (Option.isSome_iff_exists.1 h)), r5, if_neg]
      · rfl
      · intro hm
        obtain ⟨t, ht, rfl⟩ := List.mem_map.1 hm
        exact hk (hin t ht)
  have hdeps : ∀ k t, s1.pool.get? k = some t → t.deps = [] := by
    intro k t hk
    obtain ⟨s, _, hb, _, rfl⟩ := hmem t (hp1 k t hk).2
    rw [List.eq_nil_iff_forall_not_mem]
    intro d hd
    rw [mkTask_deps, hb] at hd
    cases hd
  have hnos : ∀ k, stOf s2 k = .queued ∨ stOf s2 k = .uninitialized := by
    intro k
    rw [hst]
    split
    · exact .inl rfl
    · exact .inr rfl
  exact {
    sub_nodup := by simp [submittedIds]
    done_nodup := by simp [doneIds]
    submit_ok := by intro pre t post h; simp at h
    done_ok := by intro pre i r post h; simp at h
    specs_eq := by rw [e1, r1]
    pool_nodup := by rw [e2]; exact hnp
    states_nodup := e7 (r7 (by simp [Dict.keys]))
    pool_ok := by
      intro k t hk
      rw [e2] at hk
      obtain ⟨h1, h2⟩ := hp1 k t hk
      obtain ⟨s, a, _, b, rfl⟩ := hmem t h2
      exact ⟨h1, .static s a b⟩
    pool_none := by
      intro k hk
      rw [e2] at hk
      rw [hst, hk]; rfl
    pool_some := by
      intro k t hk
      rw [e2] at hk
      rw [hst, hk]; simp
    keys_ok := by
      intro k hk
      rw [e2]
      rcases (e6 k).1 hk with hk | hk
      · obtain ⟨t, ht⟩ := (hkeys k).1 hk
        exact ⟨k, t, ht, .inl rfl⟩
      · rcases (r6 k).1 hk with hk | hk
        · obtain ⟨t, ht, rfl⟩ := List.mem_map.1 hk
          obtain ⟨t', ht'⟩ := hin t ht
          exact ⟨_, t', ht', .inl rfl⟩
        · simp [Dict.keys] at hk
    done_iff := by
      intro k
      constructor
      · intro h; rcases hnos k with h' | h' <;> rw [h'] at h <;> cases h
      · rintro ⟨r, h⟩; cases h
    queue_ok := by
      intro t ht
      rw [e4, r2, List.nil_append] at ht
      have := (hpm t).1 ht
      refine ⟨?_, by simp [Dict.keys], t, by rw [e2]; exact this, ⟨rfl, rfl, rfl⟩⟩
      rw [hst, this]; rfl
    queue_nodup := by
      rw [e4, r2, List.nil_append, pool_ids hids hnp]; exact hnp
    fut_nodup := by simp [Dict.keys]
    fut_ok := by intro k hk; simp [Dict.keys] at hk
    fut_now := by intro k r hk; simp [Dict.get?] at hk
    fut_later := by intro k r hk; simp [Dict.get?] at hk
    queued_in := by
      intro k hk
      rw [e4, r2, List.nil_append, hkeys]
      rw [hst] at hk
      split at hk
      · rename_i h; exact .inl (Option.isSome_iff_exists.1 h)
      · cases hk
    running_in := by
      intro k h; rcases hnos k with h' | h' <;> rw [h'] at h <;> cases h
    blocked := by
      intro k t _ h; rcases hnos k with h' | h' <;> rw [h'] at h <;> cases h
    started := by
      intro k t hk _ d hd
      rw [e2] at hk
      rw [hdeps k t hk] at hd
      cases hd
    sub_iff := by
      intro k
      constructor
      · intro h; simp [submittedIds] at h
      · rintro (h | h | h)
        · simp [Dict.keys] at h
        · rcases hnos k with h' | h' <;> rw [h'] at h <;> cases h
        · rcases hnos k with h' | h' <;> rw [h'] at h <;> cases h
    static_in := by
      intro s hs hsp hor
      rw [e2]
      rcases hor with h | ⟨p, _, _, _, h⟩
      · refine hin (mkTask s none none []) ?_
        unfold initTasks
        refine List.mem_map.2 ⟨s, List.mem_filter.2 ⟨hs, by rw [h]; rfl⟩, rfl⟩
      · rcases hnos p.baseId with h' | h' <;> rw [h'] at h <;> cases h
    exp_in := by
      rintro e x items ⟨_, _, _, _, _, r, _, h, _⟩
      cases h
    exp_done := by
      rintro s _ _ ⟨r, h⟩
      cases h }

/-- The invariant along whole runs. -/
theorem run_inv (hlaw : ∀ l, ops.toList (ops.ofList l) = some l) (hp : PlanOk specs) (cache : Dict Name V)
    (cs : List Choice) : (∀ l, runLoop ops g ex cs (initLoop specs cache) = .ok l → LInv ops g specs l) ∧
    ∀ e l, runLoop ops g ex cs (initLoop specs cache) = .err e l → TInv ops g specs l.trace := by
  have h0 := LInv.init (ops := ops) (g := g) hp cache
  have := runLoop_outcome (ex := ex) hlaw hp cs h0
  constructor
  · intro l hl
    rw [hl] at this
    exact h0.acts hlaw hp this
  · intro e l hl
    rw [hl] at this
    obtain ⟨l1, a, b⟩ := this
    exact (h0.acts hlaw hp a).fault b

end Verif
